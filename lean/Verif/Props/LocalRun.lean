import Verif.Lemmas.LocalRun

/-! # C63–C65, C67, C71: one step executed by the local runner

Schedules are arbitrary interleavings of the task, the process it starts (writing, closing its pipes, exiting at any
time) and the engine (cancelling or timing out the step at any time), including every failure of the file system and
of process creation. -/

namespace AstroRun
open Spec

namespace LocalEx
/-- The plan for a docker step and for a host step. -/
def plan (k : ExecKind) : RunPlan :=
  { ctx := { command := { id := ⟨"w", "j", 0⟩ } }, kind := k, dirs := Metadata.build "/srv" none ⟨"w", "j", 0⟩,
    process := { command := "x" } }
/-- The state a schedule leads to. -/
def after (k : ExecKind) (acts : List LocalAct) : LocalRun :=
  (runs LocalRun.step (LocalRun.initial (plan k) 1) acts).getD (LocalRun.initial (plan k) 1)
/-- The process writes a line to each pipe, exits with 3; everything is read. -/
def normal : List LocalAct :=
  [.begin_, .mkdirOk, .entryOk, .spawnOk, .childOut "a", .childErr "b", .readErr, .readOut, .closeErr, .closeOut,
    .exit (some 3), .readOut, .waitOk]
/-- The process writes one line and exits with 0; the reader looks at stderr first. -/
def lost : List LocalAct :=
  [.begin_, .mkdirOk, .entryOk, .spawnOk, .childOut "hello", .closeOut, .closeErr, .exit (some 0), .readErr, .waitOk]
/-- The step is cancelled while it runs. -/
def cancelled : List LocalAct :=
  [.begin_, .mkdirOk, .entryOk, .spawnOk, .childOut "a", .setSignal .cancel, .sigReady, .killDone, .removeOk, .finish,
    .hook, .hook]
/-- The same on the host. -/
def cancelledHost : List LocalAct :=
  [.begin_, .mkdirOk, .spawnOk, .childOut "a", .setSignal .cancel, .sigReady, .removeOk, .finish, .hook, .hook]
/-- The step is cancelled before the task starts. -/
def early : List LocalAct := [.setSignal .cancel, .begin_, .finish, .hook, .hook]
end LocalEx

/-! ## C63: the result -/

/-- **C63** (partial) Whatever happens, a result is the one the observations call for: exit status 0 gives
`Succeeded`, status `c` gives `Failed c`, a killed process `Failed 1`; otherwise a cancel observed while the step ran
gives `Cancelled`, a timeout `Failed 123`; otherwise (process not started, directory not created, ...) `Failed 1`.
The observed status is the process's, the observed signal the one sent.  Missing for the full claim: a cancel that
came before the task started, see `C63_refuted`. -/
theorem C63_result_partial (p : RunPlan) (plugins : Nat) (acts : List LocalAct) (m : LocalRun)
    (h : LocalReach p plugins acts m) (r : RunResult) (hr : m.stream.result = some r) :
    r = expectedResult m.exitSeen m.sigSeen ∧
    (∀ c, m.exitSeen = some c → ∃ ch, m.child = some ch ∧ ch.exit = some c) ∧
    (∀ v, m.sigSeen = some v → m.sig.signal = some v) := by
  obtain ⟨h1, h2⟩ := local_reach h
  refine ⟨?_, h2.exitOk, h2.sigOk⟩
  have ex : ∀ c, exitResult c = expectedResult (some c) m.sigSeen := by
    intro c
    cases c <;> rfl
  have sg : ∀ v, signalResult v = expectedResult none (some v) := by
    intro v
    cases v <;> rfl
  simp only [ResOk] at h1
  split at h1
  case h_1 | h_2 | h_3 | h_4 | h_5 | h_6 => simp [h1.1] at hr
  case h_7 =>
    obtain ⟨c, e1, e2, _⟩ := h1
    rw [e2, Option.some.injEq] at hr
    rw [← hr, e1, ex]
  case h_8 =>
    rw [h1.2] at hr
    cases he : m.exitSeen with
    | none => simp [he] at hr
    | some c => simp only [he, Option.map_some, Option.some.injEq] at hr; rw [← hr, ex]
  case h_9 | h_10 =>
    rw [h1] at hr
    cases he : m.exitSeen with
    | some c => simp only [he, Option.some.injEq] at hr; rw [← hr, ex]
    | none =>
      cases hv : m.sigSeen with
      | none => simp [he, hv] at hr
      | some v => simp only [he, hv, Option.some.injEq] at hr; rw [← hr, sg]
  case h_11 | h_12 =>
    rw [h1, Option.some.injEq] at hr
    rw [← hr]
    cases he : m.exitSeen with
    | some c => exact ex c
    | none =>
      cases hv : m.sigSeen with
      | none => rfl
      | some v => exact sg v

theorem step_result {m m' : LocalRun} {a : LocalAct} {r : RunResult} (hs : m.step a = some m')
    (hr : m.stream.result = some r) : m'.stream.result = some r := by
  have e1 : ∀ r', ((m.stream.endSeq r').1).result = some r := by
    intro r'
    rw [endSeq_result_some hr]
    exact hr
  have e2 : ∀ l, ((m.stream.push l).1).result = some r := fun l => hr
  cases a <;> simp only [LocalRun.step] at hs
  case finish =>
    split at hs <;> simp only [Option.some.injEq, reduceCtorEq] at hs
    subst hs
    simp only
    split
    · exact hr
    · exact e1 _
  case begin_ | readOut | readErr | sigReady =>
    repeat' (split at hs)
    all_goals simp only [Option.some.injEq, reduceCtorEq] at hs
    all_goals subst hs
    all_goals first | exact hr | exact e1 _ | exact e2 _
  all_goals
    repeat' (split at hs)
    all_goals simp only [Option.some.injEq, reduceCtorEq] at hs
    all_goals subst hs
    all_goals first | exact hr | exact e1 _ | exact e2 _

/-- **C63** A result never changes: whatever happens after a step has ended, its result stays the same. -/
theorem C63_once (m m' : LocalRun) (acts : List LocalAct) (h : runs LocalRun.step m acts = some m')
    (r : RunResult) (hr : m.stream.result = some r) : m'.stream.result = some r := by
  induction acts generalizing m with
  | nil =>
    simp only [runs, Option.some.injEq] at h
    rw [← h]
    exact hr
  | cons a acts ih =>
    simp only [runs] at h
    cases hs : m.step a with
    | none => simp [hs] at h
    | some m1 =>
      rw [hs] at h
      exact ih m1 h (step_result hs hr)

/-- How much the task has left to do. -/
def LocalRun.work (m : LocalRun) : Nat :=
  (match m.pc with
    | .start => m.plugins + 11
    | .mkdir => m.plugins + 10
    | .entry => m.plugins + 9
    | .select .notStarted => m.plugins + 8
    | .select .reading => m.plugins + 7
    | .select .waiting => m.plugins + 6
    | .select .okDone => m.plugins + 5
    | .kill _ => m.plugins + 4
    | .remove => m.plugins + 3
    | .returned => m.plugins + 2
    | .hooks n => m.plugins + 1 - n
    | .done => 0) + (unreadOut m).length + (unreadErr m).length

theorem work_step {m m' : LocalRun} {a : LocalAct} {p : RunPlan} {plugins : Nat} (hi : OutOk p plugins m)
    (ho : a.own = true) (hs : m.step a = some m') : m'.work < m.work := by
  have hle := hi.callsLe
  have hcalls := hi.calls
  have hearly := hi.early
  cases a <;> simp only [LocalAct.own, reduceCtorEq] at ho <;> simp only [LocalRun.step] at hs
  case begin_ =>
    split at hs
    · rename_i hpc
      split at hs <;> simp only [Option.some.injEq] at hs <;> subst hs <;>
        simp [LocalRun.work, hpc, unreadOut, unreadErr]
    · simp at hs
  case mkdirOk =>
    split at hs <;> simp only [Option.some.injEq, reduceCtorEq] at hs
    rename_i hpc; subst hs
    cases hk : m.kind <;> simp [LocalRun.work, hpc, unreadOut, unreadErr]
  case spawnOk =>
    split at hs <;> simp only [Option.some.injEq, reduceCtorEq] at hs
    rename_i hpc; subst hs
    simp [LocalRun.work, hpc, unreadOut, unreadErr, (hearly (by simp [hpc])).1]
  case readOut | readErr =>
    split at hs
    · rename_i hpc
      split at hs
      · rename_i ch hch
        split at hs
        · rename_i l rest hq
          simp only [Option.some.injEq] at hs; subst hs
          simp [LocalRun.work, hpc, unreadOut, unreadErr, hch, hq]
          try omega
        · rename_i hq
          split at hs <;> simp only [Option.some.injEq, reduceCtorEq] at hs
          subst hs
          simp [LocalRun.work, hpc, unreadOut, unreadErr, hch]
      · simp at hs
    · simp at hs
  case waitOk =>
    split at hs
    · rename_i hpc
      split at hs <;> simp only [Option.some.injEq, reduceCtorEq] at hs
      subst hs
      simp [LocalRun.work, hpc, unreadOut, unreadErr]
    · simp at hs
  case sigReady =>
    split at hs
    · rename_i c hpc
      split at hs
      · split at hs <;> simp only [Option.some.injEq] at hs <;> subst hs <;> cases c <;>
          simp [LocalRun.work, hpc, unreadOut, unreadErr] <;> omega
      · simp at hs
    · simp at hs
  case killDone =>
    split at hs
    · rename_i hpc
      simp only [Option.some.injEq] at hs; subst hs
      simp [LocalRun.work, hpc, unreadOut, unreadErr]
    · simp at hs
  case hook =>
    split at hs
    · rename_i n hpc
      rw [hpc] at hcalls
      simp only at hcalls
      split at hs <;> simp only [Option.some.injEq] at hs <;> subst hs <;>
        simp [LocalRun.work, hpc, unreadOut, unreadErr] <;> omega
    · simp at hs
  case prepErr =>
    split at hs <;> simp only [Option.some.injEq, reduceCtorEq] at hs
    rename_i hpc; subst hs
    simp [LocalRun.work, hpc.1, unreadOut, unreadErr]
  all_goals
    split at hs <;> simp only [Option.some.injEq, reduceCtorEq] at hs
    rename_i hpc; subst hs
    simp [LocalRun.work, hpc, unreadOut, unreadErr]

/-- **C63** Without the process or the engine doing something, the task makes only finitely many moves: from every
reachable state there is a bound on them. -/
theorem C63_bounded (p : RunPlan) (plugins : Nat) (acts : List LocalAct) (m : LocalRun)
    (h : LocalReach p plugins acts m) :
    ∃ n, ∀ acts' m', (∀ a ∈ acts', a.own = true) → runs LocalRun.step m acts' = some m' → acts'.length ≤ n := by
  refine ⟨m.work, fun acts' => ?_⟩
  have hi := local_reach h
  clear h
  induction acts' generalizing m with
  | nil => simp
  | cons a acts' ih =>
    intro m' ho hrun
    simp only [runs] at hrun
    cases hs : m.step a with
    | none => simp [hs] at hrun
    | some m1 =>
      rw [hs] at hrun
      have hlt := work_step hi.2 (ho a (by simp)) hs
      have := ih m1 ⟨hi.1.step hs, hi.2.step hi.1 hs⟩ m' (fun x hx => ho x (by simp [hx])) hrun
      simp only [List.length_cons]
      omega

/-- **C63** and when the task can do nothing more and its process, if any, is over, the step has ended: together with
`C63_bounded`, every step whose process ends has a result. -/
theorem C63_ends (p : RunPlan) (plugins : Nat) (acts : List LocalAct) (m : LocalRun)
    (h : LocalReach p plugins acts m) (hstuck : TaskStuck m) (hover : ProcessOver m) :
    ∃ r, m.stream.result = some r := by
  obtain ⟨h1, h2⟩ := local_reach h
  have hs : ∀ a : LocalAct, a.own = true → isFailure a = false → m.step a ≠ none → False :=
    fun a ho hf hne => hne (hstuck a ho hf)
  cases hpc : m.pc with
  | start =>
    refine (hs .begin_ rfl rfl ?_).elim
    simp only [LocalRun.step, hpc, if_true]
    split <;> simp
  | mkdir => exact (hs .mkdirOk rfl rfl (by simp [LocalRun.step, hpc])).elim
  | entry => exact (hs .entryOk rfl rfl (by simp [LocalRun.step, hpc])).elim
  | select c =>
    cases c with
    | notStarted => exact (hs .spawnOk rfl rfl (by simp [LocalRun.step, hpc])).elim
    | reading =>
      obtain ⟨ch, hch⟩ := h2.late (.inl hpc)
      refine (hs .readOut rfl rfl ?_).elim
      simp only [LocalRun.step, hpc, if_true, hch]
      cases hq : ch.outQ with
      | nil => simp [(hover ch hch).2.1]
      | cons l ls => simp
    | waiting =>
      obtain ⟨ch, hch⟩ := h2.late (.inr hpc)
      obtain ⟨code, hcode⟩ := Option.isSome_iff_exists.1 (hover ch hch).1
      exact (hs .waitOk rfl rfl (by simp [LocalRun.step, hpc, hch, hcode])).elim
    | okDone =>
      simp only [ResOk, hpc] at h1
      obtain ⟨c, _, e2, _⟩ := h1
      exact ⟨_, e2⟩
  | kill v => exact (hs .killDone rfl rfl (by simp [LocalRun.step, hpc])).elim
  | remove => exact (hs .removeOk rfl rfl (by simp [LocalRun.step, hpc])).elim
  | returned => exact (hs .finish rfl rfl (by simp [LocalRun.step, hpc])).elim
  | hooks n => simp only [ResOk, hpc] at h1; exact ⟨_, h1⟩
  | done => simp only [ResOk, hpc] at h1; exact ⟨_, h1⟩

example : LocalReach (LocalEx.plan .docker) 1 LocalEx.normal (LocalEx.after .docker LocalEx.normal) ∧
    (LocalEx.after .docker LocalEx.normal).stream.result = some (.failed 3) ∧
    (LocalEx.after .docker LocalEx.normal).stream.logs = [Log.ofError "b", Log.ofLog "a"] ∧
    ProcessOver (LocalEx.after .docker LocalEx.normal) ∧ TaskStuck (LocalEx.after .docker LocalEx.normal) := by
  refine ⟨by rfl, by decide, by decide, ?_, ?_⟩
  · intro ch hch
    have : ch = { outQ := [], errQ := [], outOpen := false, errOpen := false, exit := some (some 3) } := by
      have e : (LocalEx.after .docker LocalEx.normal).child =
        some { outQ := [], errQ := [], outOpen := false, errOpen := false, exit := some (some 3) } := by decide
      rw [e, Option.some.injEq] at hch
      exact hch.symm
    subst this
    simp
  · intro a ho hf
    cases a <;> simp only [LocalAct.own, isFailure, reduceCtorEq] at ho hf <;> rfl

example : (LocalEx.after .docker LocalEx.cancelled).stream.result = some .cancelled ∧
    (LocalEx.after .docker LocalEx.cancelled).pc = .done := by decide

/-- **C63 is false of the code**: a step cancelled before its task starts ends with `Failed 1`, not `Cancelled`. -/
theorem C63_refuted : ∃ (p : RunPlan) (plugins : Nat) (acts : List LocalAct) (m : LocalRun),
    LocalReach p plugins acts m ∧ acts.head? = some (.setSignal .cancel) ∧ m.pc = .done ∧
    m.sig.signal = some .cancel ∧ m.child = none ∧ m.stream.result = some (.failed 1) :=
  ⟨LocalEx.plan .docker, 1, LocalEx.early, LocalEx.after .docker LocalEx.early, by rfl, by decide, by decide, by decide,
    by decide, by decide⟩

/-! ## C64: clean-up after the step -/

/-- The waiting `select!` can only be ended by a signal. -/
theorem okDone_stays {m m' : LocalRun} {acts : List LocalAct} (hpc : m.pc = .select .okDone)
    (hsig : m.sig.signal = none) (hno : ∀ v, .setSignal v ∉ acts) (h : runs LocalRun.step m acts = some m') :
    m'.pc = .select .okDone ∧ m'.dirThere = m.dirThere ∧ m'.afterCalls = m.afterCalls := by
  induction acts generalizing m with
  | nil =>
    simp only [runs, Option.some.injEq] at h
    subst h
    exact ⟨hpc, rfl, rfl⟩
  | cons a acts ih =>
    simp only [runs] at h
    cases hs : m.step a with
    | none => simp [hs] at h
    | some m1 =>
      rw [hs] at h
      have hno' : ∀ v, .setSignal v ∉ acts := fun v hv => hno v (by simp [hv])
      have key : m1.pc = .select .okDone ∧ m1.sig = m.sig ∧ m1.dirThere = m.dirThere ∧ m1.afterCalls = m.afterCalls := by
        cases a <;> simp only [LocalRun.step, hpc, reduceCtorEq, false_and, if_false, LocalPc.select.injEq] at hs
        case setSignal v => exact absurd (by simp) (hno v)
        case sigReady =>
          have : ∀ sg v, m.sig.poll 0 ≠ (sg, some v) := by
            intro sg v hp
            simp only [SigState.poll, hsig] at hp
            split at hp <;> simp at hp
          split at hs
          · rename_i sg v hp
            exact absurd hp (this sg v)
          · simp at hs
        all_goals
          repeat' (split at hs)
          all_goals simp only [Option.some.injEq, reduceCtorEq] at hs
          all_goals subst hs
          all_goals first | exact ⟨hpc, rfl, rfl, rfl⟩ | exact ⟨rfl, rfl, rfl, rfl⟩
      obtain ⟨k1, k2, k3, k4⟩ := key
      obtain ⟨j1, j2, j3⟩ := ih k1 (by rw [k2]; exact hsig) hno' h
      exact ⟨j1, by rw [j2, k3], by rw [j3, k4]⟩

/-- **C64 is false of the code**, for every step that ends normally: once a step has ended with its process's exit
status and no signal was sent, then, whatever happens later short of a cancel or timeout (of the finished step), the
step's directory is never removed and `on_after_run` is never called: the `select!` waits for the signal forever. -/
theorem C64_never_cleaned_refuted (p : RunPlan) (plugins : Nat) (acts : List LocalAct) (m : LocalRun)
    (h : LocalReach p plugins acts m) (hexit : m.exitSeen.isSome = true) (hsig : m.sig.signal = none)
    (acts' : List LocalAct) (m' : LocalRun) (hno : ∀ v, .setSignal v ∉ acts')
    (hrun : runs LocalRun.step m acts' = some m') :
    m'.stream.result.isSome = true ∧ m'.dirThere = true ∧ m'.afterCalls = 0 ∧ m'.pc ≠ .done := by
  obtain ⟨h1, h2⟩ := local_reach h
  have hsn : m.sigSeen = none := by
    cases hv : m.sigSeen with
    | none => rfl
    | some v => rw [h2.sigOk v hv] at hsig; simp at hsig
  -- where the task can be
  have hpc : m.pc = .select .okDone ∧ m.dirThere = true := by
    have := h2.afterExit hexit hsn
    exact ⟨this, h2.dir (.inr (.inl ⟨_, this⟩))⟩
  obtain ⟨j1, j2, j3⟩ := okDone_stays hpc.1 hsig hno hrun
  refine ⟨?_, by rw [j2]; exact hpc.2, ?_, by rw [j1]; simp⟩
  · simp only [ResOk, hpc.1] at h1
    obtain ⟨c, _, e, _⟩ := h1
    rw [C63_once m m' acts' hrun _ e]
    rfl
  · rw [j3, h2.calls, hpc.1]

example : (LocalEx.after .docker LocalEx.normal).exitSeen = some (some 3) ∧
    (LocalEx.after .docker LocalEx.normal).sig.signal = none ∧
    (LocalEx.after .docker LocalEx.normal).plugins = 1 := by decide

/-- A directory that is still there at the end is there because the operating system failed. -/
theorem dir_left {p : RunPlan} {plugins : Nat} {acts : List LocalAct} {m : LocalRun} (h : LocalReach p plugins acts m) :
    m.dirThere = true → m.pc = .returned ∨ (∃ n, m.pc = .hooks n) ∨ m.pc = .done →
      .removeErr ∈ acts ∨ .entryErr ∈ acts := by
  refine runs_induct (P := fun acts m => (m.pc = .start ∨ m.pc = .mkdir → m.dirThere = false) ∧
    (m.dirThere = true → m.pc = .returned ∨ (∃ n, m.pc = .hooks n) ∨ m.pc = .done →
      .removeErr ∈ acts ∨ .entryErr ∈ acts)) (by simp [LocalRun.initial]) ?_ h |>.2
  rintro as a s s' _ ⟨h0, hi⟩ hs
  have keep : s'.pc = s.pc → s'.dirThere = s.dirThere →
      (s'.pc = .start ∨ s'.pc = .mkdir → s'.dirThere = false) ∧
      (s'.dirThere = true → s'.pc = .returned ∨ (∃ n, s'.pc = .hooks n) ∨ s'.pc = .done →
        .removeErr ∈ as ++ [a] ∨ .entryErr ∈ as ++ [a]) := by
    intro e1 e2
    rw [e1, e2]
    refine ⟨h0, fun hd hp => ?_⟩
    rcases hi hd hp with h | h <;> simp [h]
  cases a <;> simp only [LocalRun.step] at hs
  case childOut | childErr | closeOut | closeErr | exit | setSignal =>
    repeat' (split at hs)
    all_goals simp only [Option.some.injEq, reduceCtorEq] at hs
    all_goals subst hs
    all_goals exact keep rfl rfl
  case hook =>
    split at hs
    · rename_i n hpc
      split at hs <;> simp only [Option.some.injEq] at hs <;> subst hs <;>
      · refine ⟨by simp, fun hd _ => ?_⟩
        rcases hi hd (.inr (.inl ⟨n, hpc⟩)) with h | h <;> simp [h]
    · simp at hs
  case finish =>
    split at hs <;> simp only [Option.some.injEq, reduceCtorEq] at hs
    rename_i hpc; subst hs
    refine ⟨by simp, fun hd _ => ?_⟩
    rcases hi hd (.inl hpc) with h | h <;> simp [h]
  case begin_ =>
    split at hs
    · rename_i hpc
      have := h0 (.inl hpc)
      split at hs <;> simp only [Option.some.injEq] at hs <;> subst hs <;> simp [this]
    · simp at hs
  case prepErr | mkdirErr =>
    split at hs <;> simp only [Option.some.injEq, reduceCtorEq] at hs
    rename_i hpc; subst hs
    have := h0 (by simp [hpc])
    simp [this]
  case mkdirOk =>
    split at hs <;> simp only [Option.some.injEq, reduceCtorEq] at hs
    rename_i hpc; subst hs
    cases s.kind <;> simp
  case sigReady =>
    split at hs
    · split at hs
      · split at hs <;> simp only [Option.some.injEq] at hs <;> subst hs <;> simp
      · simp at hs
    · simp at hs
  case readOut | readErr =>
    split at hs
    · rename_i hpc
      split at hs
      · split at hs
        · simp only [Option.some.injEq] at hs; subst hs
          simp [hpc]
        · split at hs <;> simp only [Option.some.injEq, reduceCtorEq] at hs
          subst hs; simp
      · simp at hs
    · simp at hs
  all_goals
    repeat' (split at hs)
    all_goals simp only [Option.some.injEq, reduceCtorEq] at hs
    all_goals subst hs
    all_goals simp

/-- **C64** (partial) In every other case the claim holds: if the step did not end by observing the exit of its
process, or a signal was sent, then when the task can do nothing more it is finished, `on_after_run` of every plugin
was called, and the directory is gone (unless removing it, or writing the entrypoint file, failed).  Missing: steps
that end normally, for which it never holds, see `C64_never_cleaned_refuted`. -/
theorem C64_cleaned_partial (p : RunPlan) (plugins : Nat) (acts : List LocalAct) (m : LocalRun)
    (h : LocalReach p plugins acts m) (hstuck : TaskStuck m) (hover : ProcessOver m)
    (hcase : m.exitSeen = none ∨ m.sig.signal ≠ none) :
    m.pc = .done ∧ m.afterCalls = plugins ∧ m.stream.result.isSome = true ∧
    (.removeErr ∉ acts → .entryErr ∉ acts → m.dirThere = false) := by
  obtain ⟨h1, h2⟩ := local_reach h
  obtain ⟨r, hr⟩ := C63_ends p plugins acts m h hstuck hover
  have hpc : m.pc = .done := by
    have hs : ∀ a : LocalAct, a.own = true → isFailure a = false → m.step a ≠ none → False :=
      fun a ho hf hne => hne (hstuck a ho hf)
    cases hpc : m.pc with
    | start =>
      refine (hs .begin_ rfl rfl ?_).elim
      simp only [LocalRun.step, hpc, if_true]
      split <;> simp
    | mkdir => exact (hs .mkdirOk rfl rfl (by simp [LocalRun.step, hpc])).elim
    | entry => exact (hs .entryOk rfl rfl (by simp [LocalRun.step, hpc])).elim
    | select c =>
      cases c with
      | notStarted => exact (hs .spawnOk rfl rfl (by simp [LocalRun.step, hpc])).elim
      | reading => simp only [ResOk, hpc] at h1; rw [h1.1] at hr; simp at hr
      | waiting => simp only [ResOk, hpc] at h1; rw [h1.1] at hr; simp at hr
      | okDone =>
        simp only [ResOk, hpc] at h1
        obtain ⟨c, e1, _, e3⟩ := h1
        rcases hcase with hc | hc
        · rw [e1] at hc; simp at hc
        · obtain ⟨v, hv⟩ := Option.ne_none_iff_exists'.1 hc
          have hn : m.sig.isNotified = false := by rw [h2.fresh, e3]; rfl
          refine (hs .sigReady rfl rfl ?_).elim
          simp only [LocalRun.step, hpc, SigState.poll, hn, hv]
          cases m.kind <;> simp
    | kill v => exact (hs .killDone rfl rfl (by simp [LocalRun.step, hpc])).elim
    | remove => exact (hs .removeOk rfl rfl (by simp [LocalRun.step, hpc])).elim
    | returned => exact (hs .finish rfl rfl (by simp [LocalRun.step, hpc])).elim
    | hooks n =>
      refine (hs .hook rfl rfl ?_).elim
      simp only [LocalRun.step, hpc]
      split <;> simp
    | done => rfl
  refine ⟨hpc, ?_, by simp [hr], fun n1 n2 => ?_⟩
  · rw [h2.calls, hpc]; exact h2.plugins
  · cases hd : m.dirThere with
    | false => rfl
    | true =>
      rcases dir_left h hd (.inr (.inr hpc)) with h | h
      · exact absurd h n1
      · exact absurd h n2

example : LocalReach (LocalEx.plan .docker) 1 (LocalEx.cancelled ++ [.closeOut, .closeErr, .exit none])
      (LocalEx.after .docker (LocalEx.cancelled ++ [.closeOut, .closeErr, .exit none])) ∧
    TaskStuck (LocalEx.after .docker (LocalEx.cancelled ++ [.closeOut, .closeErr, .exit none])) ∧
    (LocalEx.after .docker (LocalEx.cancelled ++ [.closeOut, .closeErr, .exit none])).exitSeen = none ∧
    (LocalEx.after .docker (LocalEx.cancelled ++ [.closeOut, .closeErr, .exit none])).afterCalls = 1 := by
  refine ⟨by rfl, ?_, by decide, by decide⟩
  intro a ho hf
  cases a <;> simp only [LocalAct.own, isFailure, reduceCtorEq] at ho hf <;> rfl

/-! ## C65: the output of the process -/

/-- **C65** (partial) At every moment, the lines logged so far are, in order and without gaps, the lines written to
stdout up to those not read yet, and the error lines those written to stderr up to those not read yet, followed by
the message of a read error if there was one.  When the exit status has been observed and there was no read error,
at least one of the two pipes has been read completely.  Missing: the other one, see `C65_refuted`. -/
theorem C65_in_order_partial (p : RunPlan) (plugins : Nat) (acts : List LocalAct) (m : LocalRun)
    (h : LocalReach p plugins acts m) :
    outLines m.stream.logs ++ unreadOut m = m.outWritten ∧
    (∃ read, errLines m.stream.logs = read ++ m.ioErr.toList ∧ read ++ unreadErr m = m.errWritten) ∧
    (m.exitSeen.isSome = true → m.ioErr = none → unreadOut m = [] ∨ unreadErr m = []) := by
  obtain ⟨_, h2⟩ := local_reach h
  refine ⟨h2.outs, h2.errs, fun he hio => ?_⟩
  rcases h2.stopped (.inr he) with h | ⟨ch, hch, h | h⟩
  · simp [hio] at h
  · exact .inl (by simp [unreadOut, hch, h.1])
  · exact .inr (by simp [unreadErr, hch, h.1])

/-- **C65 is false of the code**: a process that writes one line to stdout and exits successfully; the step ends
`Succeeded` and the line is never logged, whatever happens afterwards, because the end of stderr was seen first. -/
theorem C65_refuted : ∃ (p : RunPlan) (plugins : Nat) (acts : List LocalAct) (m : LocalRun),
    LocalReach p plugins acts m ∧ m.outWritten = ["hello"] ∧ m.stream.result = some .succeeded ∧
    m.stream.logs = [] ∧ m.ioErr = none ∧
    ∀ acts' m', runs LocalRun.step m acts' = some m' → m'.stream.logs = [] := by
  refine ⟨LocalEx.plan .docker, 1, LocalEx.lost, LocalEx.after .docker LocalEx.lost, by rfl, by decide, by decide,
    by decide, by decide, ?_⟩
  have key : ∀ (m m' : LocalRun) (acts' : List LocalAct), m.pc ≠ .select .reading → m.pc ≠ .select .notStarted →
      m.pc ≠ .start → m.pc ≠ .mkdir → m.pc ≠ .entry → m.stream.logs = [] →
      runs LocalRun.step m acts' = some m' → m'.stream.logs = [] := by
    intro m m' acts'
    induction acts' generalizing m with
    | nil =>
      intro _ _ _ _ _ hl h
      simp only [runs, Option.some.injEq] at h
      exact h ▸ hl
    | cons a as ih =>
      intro n1 n2 n3 n4 n5 hl h
      simp only [runs] at h
      cases hs : m.step a with
      | none => simp [hs] at h
      | some m1 =>
        rw [hs] at h
        have e1 : ∀ r, ((m.stream.endSeq r).1).logs = [] := fun r => by rw [endSeq_logs_eq]; exact hl
        suffices hk : m1.pc ≠ .select .reading ∧ m1.pc ≠ .select .notStarted ∧ m1.pc ≠ .start ∧ m1.pc ≠ .mkdir ∧
            m1.pc ≠ .entry ∧ m1.stream.logs = [] from
          ih m1 hk.1 hk.2.1 hk.2.2.1 hk.2.2.2.1 hk.2.2.2.2.1 hk.2.2.2.2.2 h
        cases a <;> simp only [LocalRun.step, n1, n2, n3, n4, n5, false_and, if_false, reduceCtorEq] at hs
        case finish =>
          split at hs <;> simp only [Option.some.injEq, reduceCtorEq] at hs
          subst hs
          refine ⟨by simp, by simp, by simp, by simp, by simp, ?_⟩
          simp only
          split
          · exact hl
          · exact e1 _
        all_goals
          repeat' (split at hs)
          all_goals simp only [Option.some.injEq, reduceCtorEq] at hs
          all_goals subst hs
          all_goals first
            | exact ⟨n1, n2, n3, n4, n5, hl⟩
            | exact ⟨by simp, by simp, by simp, by simp, by simp, hl⟩
            | exact ⟨by simp, by simp, by simp, by simp, by simp, e1 _⟩
  intro acts' m' h
  exact key _ m' acts' (by decide) (by decide) (by decide) (by decide) (by decide) (by decide) h

/-! ## C66: processes are started with everything in place -/

/-- What went wrong before the process could be started. -/
def unprepared : LocalAct → Bool
  | .prepErr | .mkdirErr | .entryErr | .spawnErr => true
  | _ => false

/-- The command is being executed. -/
def inSelect : LocalPc → Bool
  | .select _ => true
  | _ => false

/-- **C66** (nothing is started without it) Whatever happens: a process is started only after the step's directory has been made and, for
docker, the entrypoint file been written, and if neither this nor anything before it has failed. -/
theorem C66_started_with_entrypoint (p : RunPlan) (plugins : Nat) (acts : List LocalAct) (m : LocalRun)
    (h : LocalReach p plugins acts m) (hc : m.child ≠ none) :
    LocalAct.mkdirOk ∈ acts ∧ (m.kind = .docker → LocalAct.entryOk ∈ acts) ∧ ∀ a ∈ acts, unprepared a = false := by
  have key : ((m.pc = .start ∨ m.pc = .mkdir ∨ m.pc = .entry ∨ m.pc = .select .notStarted) → m.child = none) ∧
      ((m.pc = .start ∨ m.pc = .mkdir ∨ m.pc = .entry ∨ inSelect m.pc = true ∨ m.child ≠ none) → ∀ a ∈ acts, unprepared a = false) ∧
      ((m.pc = .entry ∨ inSelect m.pc = true ∨ m.child ≠ none) → LocalAct.mkdirOk ∈ acts) ∧
      ((inSelect m.pc = true ∨ m.child ≠ none) → m.kind = .docker → LocalAct.entryOk ∈ acts) := by
    refine runs_induct (P := fun acts (m : LocalRun) =>
      ((m.pc = .start ∨ m.pc = .mkdir ∨ m.pc = .entry ∨ m.pc = .select .notStarted) → m.child = none) ∧
      ((m.pc = .start ∨ m.pc = .mkdir ∨ m.pc = .entry ∨ inSelect m.pc = true ∨ m.child ≠ none) → ∀ a ∈ acts, unprepared a = false) ∧
      ((m.pc = .entry ∨ inSelect m.pc = true ∨ m.child ≠ none) → LocalAct.mkdirOk ∈ acts) ∧
      ((inSelect m.pc = true ∨ m.child ≠ none) → m.kind = .docker → LocalAct.entryOk ∈ acts)) (by simp [LocalRun.initial, inSelect]) ?_ h
    rintro as a s s' _ ⟨i1, i2, i3, i4⟩ hs
    cases a <;> simp only [LocalRun.step] at hs <;> repeat' (split at hs)
    all_goals first
      | (exfalso; simp only [reduceCtorEq] at hs; done)
      | (simp only [Option.some.injEq] at hs; subst hs
         simp only [List.mem_append, List.mem_singleton]
         grind [unprepared, inSelect])
  exact ⟨key.2.2.1 (.inr (.inr hc)), key.2.2.2 (.inr hc), key.2.1 (.inr (.inr (.inr (.inr hc))))⟩

example : ∃ m, LocalReach (LocalEx.plan .docker) 1 LocalEx.normal m ∧ m.child ≠ none ∧ m.kind = .docker :=
  ⟨LocalEx.after .docker LocalEx.normal, rfl, by decide, rfl⟩

/-! ## C67: signalled before the start -/

/-- **C67** If a signal is set when the task starts, then, whatever happens later, no process is started, no
directory or file is created, nothing is killed; and once the task can do nothing more the step has ended (with
`Failed 1`) and the plugins were called. -/
theorem C67_nothing_started (p : RunPlan) (plugins : Nat) (acts : List LocalAct) (m : LocalRun)
    (h : LocalReach p plugins acts m) (hpc : m.pc = .start) (hsig : m.sig.signal ≠ none)
    (acts' : List LocalAct) (m' : LocalRun) (hrun : runs LocalRun.step m acts' = some m') :
    m'.child = none ∧ m'.touched = false ∧ m'.kills = [] ∧
    (TaskStuck m' → m'.pc = .done ∧ m'.afterCalls = plugins ∧ m'.stream.result = some (.failed 1)) := by
  have ht0 : m.touched = false := by
    refine runs_induct (P := fun _ m => m.pc = .start ∨ m.pc = .mkdir → m.touched = false) (by simp [LocalRun.initial])
      ?_ h (.inl hpc)
    intro as a s s' _ hi hs
    cases a <;> simp only [LocalRun.step] at hs
    case childOut | childErr | closeOut | closeErr | exit | setSignal =>
      repeat' (split at hs)
      all_goals simp only [Option.some.injEq, reduceCtorEq] at hs
      all_goals subst hs
      all_goals exact hi
    case begin_ =>
      split at hs
      · rename_i hp
        split at hs <;> simp only [Option.some.injEq] at hs <;> subst hs <;> simp [hi (.inl hp)]
      · simp at hs
    case mkdirOk =>
      split at hs <;> simp only [Option.some.injEq, reduceCtorEq] at hs
      subst hs
      cases s.kind <;> simp
    case readOut | readErr =>
      split at hs
      · rename_i hp
        repeat' (split at hs)
        all_goals simp only [Option.some.injEq, reduceCtorEq] at hs
        all_goals subst hs
        all_goals simp [hp]
      · simp at hs
    all_goals
      repeat' (split at hs)
      all_goals simp only [Option.some.injEq, reduceCtorEq] at hs
      all_goals subst hs
      all_goals simp
  have hreach : LocalReach p plugins (acts ++ acts') m' := by
    simp only [LocalReach, runs_append] at h ⊢
    rw [h]
    exact hrun
  have hinv : m'.touched = false ∧ m'.exitSeen = none ∧ m'.sigSeen = none ∧
      ((m'.pc = .start ∧ m'.sig.signal ≠ none) ∨ m'.pc = .returned ∨ (∃ n, m'.pc = .hooks n) ∨ m'.pc = .done) := by
    obtain ⟨k1, _⟩ := local_reach h
    simp only [ResOk, hpc] at k1
    refine runs_induct (P := fun _ m' => m'.touched = false ∧ m'.exitSeen = none ∧ m'.sigSeen = none ∧
      ((m'.pc = .start ∧ m'.sig.signal ≠ none) ∨ m'.pc = .returned ∨ (∃ n, m'.pc = .hooks n) ∨ m'.pc = .done))
      ⟨ht0, k1.2.1, k1.2.2, .inl ⟨hpc, hsig⟩⟩ ?_ hrun
    rintro as a s s' _ ⟨i1, i2, i3, i4⟩ hs
    have nsel : ∀ c, s.pc ≠ .select c := by
      intro c hc
      rcases i4 with ⟨h, _⟩ | h | ⟨n, h⟩ | h <;> rw [hc] at h <;> simp at h
    have nmk : s.pc ≠ .mkdir := by
      intro hc
      rcases i4 with ⟨h, _⟩ | h | ⟨n, h⟩ | h <;> rw [hc] at h <;> simp at h
    have nent : s.pc ≠ .entry := by
      intro hc
      rcases i4 with ⟨h, _⟩ | h | ⟨n, h⟩ | h <;> rw [hc] at h <;> simp at h
    have nrm : s.pc ≠ .remove := by
      intro hc
      rcases i4 with ⟨h, _⟩ | h | ⟨n, h⟩ | h <;> rw [hc] at h <;> simp at h
    have nk : ∀ v, s.pc ≠ .kill v := by
      intro v hc
      rcases i4 with ⟨h, _⟩ | h | ⟨n, h⟩ | h <;> rw [hc] at h <;> simp at h
    cases a <;> simp only [LocalRun.step, nsel, nmk, nent, nrm, if_false, reduceCtorEq] at hs
    case begin_ =>
      split at hs
      · rename_i hp
        have hset : (s.sig.isCancelled || s.sig.isTimeout) = true := by
          rcases i4 with ⟨_, h⟩ | h | ⟨n, h⟩ | h
          · simp only [SigState.isCancelled, SigState.isTimeout]
            cases hv : s.sig.signal with
            | none => exact absurd hv h
            | some v => cases v <;> rfl
          all_goals rw [hp] at h; simp at h
        rw [if_pos hset] at hs
        simp only [Option.some.injEq] at hs; subst hs
        exact ⟨i1, i2, i3, .inr (.inl rfl)⟩
      · simp at hs
    case prepErr =>
      split at hs <;> simp only [Option.some.injEq, reduceCtorEq] at hs
      subst hs
      exact ⟨i1, i2, i3, .inr (.inl rfl)⟩
    case finish =>
      split at hs <;> simp only [Option.some.injEq, reduceCtorEq] at hs
      subst hs
      exact ⟨i1, i2, i3, .inr (.inr (.inl ⟨0, rfl⟩))⟩
    case hook =>
      split at hs
      · rename_i n hp
        split at hs <;> simp only [Option.some.injEq] at hs <;> subst hs
        · exact ⟨i1, i2, i3, .inr (.inr (.inl ⟨n + 1, rfl⟩))⟩
        · exact ⟨i1, i2, i3, .inr (.inr (.inr rfl))⟩
      · simp at hs
    case setSignal v =>
      simp only [Option.some.injEq] at hs; subst hs
      refine ⟨i1, i2, i3, ?_⟩
      rcases i4 with ⟨h1, h2⟩ | h
      · refine .inl ⟨h1, ?_⟩
        obtain ⟨w, hw⟩ := Option.ne_none_iff_exists'.1 h2
        simp [SigState.set, hw]
      · exact .inr h
    all_goals
      repeat' (split at hs)
      all_goals simp only [Option.some.injEq, reduceCtorEq] at hs
      all_goals subst hs
      all_goals exact ⟨i1, i2, i3, i4⟩
  obtain ⟨i1, i2, i3, i4⟩ := hinv
  obtain ⟨g1, g2⟩ := local_reach hreach
  have hchild := (g2.untouched i1).1
  refine ⟨hchild, i1, ?_, fun hstuck => ?_⟩
  · rw [g2.killed, if_neg]
    simp [i3]
  · obtain ⟨c1, c2, c3, _⟩ := C64_cleaned_partial p plugins _ m' hreach hstuck (by
      intro ch hch
      rw [hchild] at hch
      simp at hch) (.inl i2)
    refine ⟨c1, c2, ?_⟩
    obtain ⟨r, hr⟩ := Option.isSome_iff_exists.1 c3
    have := (C63_result_partial p plugins _ m' hreach r hr).1
    rw [i2, i3] at this
    rw [hr, this]
    rfl

example : LocalReach (LocalEx.plan .host) 1 [.setSignal .timeout] (LocalEx.after .host [.setSignal .timeout]) ∧
    (LocalEx.after .host [.setSignal .timeout]).pc = .start ∧
    (LocalEx.after .host [.setSignal .timeout]).sig.signal = some .timeout ∧
    (LocalEx.after .host [.setSignal .timeout, .begin_, .finish, .hook, .hook]).pc = .done := by
  refine ⟨by rfl, by decide, by decide, by decide⟩

/-! ## C71: stopping the process -/

/-- **C71** (partial) When a docker step has ended because of a cancel or timeout, `docker kill` has been run, once,
with the name of that step's container.  Missing: host steps, see `C71_refuted`. -/
theorem C71_docker_killed_partial (p : RunPlan) (plugins : Nat) (acts : List LocalAct) (m : LocalRun)
    (h : LocalReach p plugins acts m) (hk : p.kind = .docker) (hr : m.stream.result.isSome = true)
    (hexit : m.exitSeen = none) (hsig : m.sigSeen.isSome = true) :
    m.kills = ["docker kill " ++ p.dirs.dockerName] := by
  obtain ⟨h1, h2⟩ := local_reach h
  rw [h2.killed, if_pos, h2.name]
  refine ⟨by rw [h2.kind]; exact hk, hsig, ?_⟩
  cases hpc : m.pc <;> first | rfl | skip
  simp only [ResOk, hpc, hexit] at h1
  rw [h1.2] at hr
  simp at hr

example : (LocalEx.after .docker LocalEx.cancelled).stream.result.isSome = true ∧
    (LocalEx.after .docker LocalEx.cancelled).exitSeen = none ∧
    (LocalEx.after .docker LocalEx.cancelled).sigSeen = some .cancel ∧
    (LocalEx.after .docker LocalEx.cancelled).kills = ["docker kill w-j-0"] := by decide

/-- **C71 is false of the code** for host steps: a cancelled step has ended as `Cancelled`, its directory is removed,
everything is over, and its process still runs and can go on writing. -/
theorem C71_refuted : ∃ (p : RunPlan) (acts : List LocalAct) (m : LocalRun),
    LocalReach p 1 acts m ∧ m.pc = .done ∧ m.stream.result = some .cancelled ∧ m.dirThere = false ∧ m.kills = [] ∧
    ∃ ch, m.child = some ch ∧ ch.exit = none ∧ (m.step (.childOut "still here")).isSome = true := by
  refine ⟨LocalEx.plan .host, LocalEx.cancelledHost, LocalEx.after .host LocalEx.cancelledHost, by rfl, by decide,
    by decide, by decide, by decide, { outQ := ["a"] }, by decide, by decide, by decide⟩

end AstroRun
