import Verif.Spec.Remote
import Verif.Lemmas.Run
import Verif.Lemmas.Map

/-! # Invariants of a remote execution -/

namespace AstroRun
open Spec

theorem wireLogs_append (a b : List WireItem) : wireLogs (a ++ b) = wireLogs a ++ wireLogs b := by simp [wireLogs]
theorem wireResults_append (a b : List WireItem) : wireResults (a ++ b) = wireResults a ++ wireResults b := by
  simp [wireResults]
@[simp] theorem wireLogs_log (l : Log) : wireLogs [.log l] = [l] := rfl
@[simp] theorem wireLogs_result (r : RunResult) : wireLogs [.result r] = [] := rfl
@[simp] theorem wireResults_log (l : Log) : wireResults [.log l] = [] := rfl
@[simp] theorem wireResults_result (r : RunResult) : wireResults [.result r] = [r] := rfl
@[simp] theorem wireLogs_nil : wireLogs [] = [] := rfl
@[simp] theorem wireResults_nil : wireResults [] = [] := rfl

theorem StreamState.push_logs (s : StreamState) (l : Log) : (s.push l).1.logs = s.logs ++ [l] := rfl
theorem StreamState.push_result (s : StreamState) (l : Log) : (s.push l).1.result = s.result := rfl
theorem StreamState.push_index (s : StreamState) (l : Log) : (s.push l).1.index = s.index := rfl

theorem StreamState.endSeq_logs (s : StreamState) (r : RunResult) : (s.endSeq r).1.logs = s.logs := by
  simp only [endSeq, endWrite]; split <;> rfl
theorem StreamState.endSeq_index (s : StreamState) (r : RunResult) : (s.endSeq r).1.index = s.index := by
  simp only [endSeq, endWrite]; split <;> rfl
theorem StreamState.endSeq_result (s : StreamState) (r : RunResult) :
    (s.endSeq r).1.result = some (s.result.getD r) := by
  by_cases h : s.result.isSome = true
  · obtain ⟨x, hx⟩ := Option.isSome_iff_exists.1 h
    simp [endSeq, isEnded, hx]
  · have : s.result = none := by simpa using h
    simp [endSeq, isEnded, endWrite, this]

theorem StreamState.fail_logs (s : StreamState) (m : String) : (s.fail m).logs = s.logs ++ [Log.ofError m] := by
  simp [fail, endSeq_logs, error, push_logs]
theorem StreamState.fail_index (s : StreamState) (m : String) : (s.fail m).index = s.index := by
  simp [fail, endSeq_index, error, push_index]
theorem StreamState.fail_result (s : StreamState) (m : String) :
    (s.fail m).result = some (s.result.getD (.failed 1)) := by
  simp [fail, endSeq_result, error, push_result]

theorem Log.cases_eq (l : Log) : (if l.isError then Log.ofError l.message else Log.ofLog l.message) = l := by
  obtain ⟨t, m⟩ := l
  cases t <;> rfl

theorem StreamState.accept_logs (s : StreamState) (x : WireItem) : (s.accept x).logs = s.logs ++ wireLogs [x] := by
  cases x with
  | log l =>
    have := Log.cases_eq l
    simp only [accept, error, log]
    split at this <;> rename_i h <;> simp [h, push_logs, this]
  | result r => simp [accept, endSeq_logs]
theorem StreamState.accept_index (s : StreamState) (x : WireItem) : (s.accept x).index = s.index := by
  cases x with
  | log l => simp only [accept, error, log]; split <;> rfl
  | result r => simp [accept, endSeq_index]
theorem StreamState.accept_result (s : StreamState) (x : WireItem) :
    (s.accept x).result = s.result.or (wireResults [x]).head? := by
  cases x with
  | log l => simp only [accept, error, log]; split <;> simp [push_result]
  | result r => cases h : s.result <;> simp [accept, endSeq_result, h]

theorem StreamState.poll_item {s s' : StreamState} {t : Nat} {l : Log} (h : s.poll t = (s', .item l)) :
    s.logs[s.index]? = some l ∧ s' = { s with waker := some t, index := s.index + 1 } := by
  simp only [poll] at h
  split at h
  · rename_i l' hl
    simp only [Prod.mk.injEq, PollOut.item.injEq] at h
    exact ⟨h.2 ▸ hl, h.1.symm⟩
  · split at h <;> simp at h

theorem StreamState.poll_eos {s s' : StreamState} {t : Nat} (h : s.poll t = (s', .eos)) :
    s.logs.length ≤ s.index ∧ s.result.isSome ∧ s' = { s with waker := some t } := by
  simp only [poll] at h
  split at h
  · simp at h
  · rename_i hn
    split at h <;> simp at h
    rename_i hr
    exact ⟨List.getElem?_eq_none_iff.1 hn, hr, h.symm⟩

/-- The reader of a stream has exactly the first `index` entries. -/
structure ReadsOk (s : StreamState) (got : List Log) : Prop where
  le : s.index ≤ s.logs.length
  eq : got = s.logs.take s.index

theorem ReadsOk.mono {s s' : StreamState} {got : List Log} (h : ReadsOk s got) (hi : s'.index = s.index)
    (hl : s.logs <+: s'.logs) : ReadsOk s' got := by
  obtain ⟨t, ht⟩ := hl
  constructor
  · rw [hi, ← ht, List.length_append]; exact Nat.le_add_right_of_le h.le
  · rw [h.eq, hi, ← ht, List.take_append_of_le_length h.le]

theorem ReadsOk.item {s : StreamState} {got : List Log} {l : Log} (h : ReadsOk s got) (hl : s.logs[s.index]? = some l)
    (s' : StreamState) (h1 : s'.logs = s.logs) (h2 : s'.index = s.index + 1) : ReadsOk s' (got ++ [l]) := by
  obtain ⟨hlt, hl'⟩ := List.getElem?_eq_some_iff.1 hl
  constructor
  · rw [h1, h2]; exact hlt
  · rw [h1, h2, h.eq, List.take_add_one, hl]; rfl

/-- Logs and result of the client's stream, after it received `got`. -/
def CliOk (m : RemoteRun) : Prop :=
  match m.cli with
  | .calling => m.clientGot = [] ∧ m.outer.logs = [] ∧ m.outer.result = none ∧ m.srv = .idle
  | .streaming | .signalling _ =>
    m.outer.logs = wireLogs m.clientGot ∧ m.outer.result = (wireResults m.clientGot).head?
  | .checking =>
    (m.outer.logs = wireLogs m.clientGot ∧ m.outer.result = (wireResults m.clientGot).head?) ∨
    (∃ own, OwnError own ∧ m.outer.logs = wireLogs m.clientGot ++ [own] ∧
      m.outer.result = some ((wireResults m.clientGot).head?.getD (.failed 1)))
  | .finished =>
    m.outer.result = some ((wireResults m.clientGot).head?.getD (.failed 1)) ∧
    ((m.outer.logs = wireLogs m.clientGot ∧ wireResults m.clientGot ≠ []) ∨
      ∃ own, OwnError own ∧ m.outer.logs = wireLogs m.clientGot ++ [own])

/-- `all` is what the server's task has taken from its runner. -/
def Produced (acts : List RemoteAct) (m : RemoteRun) (all : List WireItem) : Prop :=
  (all = m.serverGot.map .log ∧ ∀ r, m.srv ≠ .sending (.result r)) ∨
  ∃ r, all = m.serverGot.map .log ++ [.result r] ∧ m.inner.result = some r ∧
    (m.srv = .dead ∨ m.srv = .sending (.result r)) ∧ runnerLogsBeforeEnd acts <+: m.serverGot

/-- `ps` is what of it did not get into the queue. -/
def Unsent (m : RemoteRun) (ps : List WireItem) : Prop :=
  match m.srv with
  | .sending x => ∃ ps', ps = ps' ++ [x] ∧ (m.dropped = false → ps' = [])
  | .dead => True
  | _ => m.dropped = false → ps = []

/-- What was sent, and what was to be sent. -/
def SentOk (acts : List RemoteAct) (m : RemoteRun) : Prop :=
  ∃ ps, Produced acts m (m.serverSent ++ ps) ∧ Unsent m ps

/-- The invariant. -/
structure RemoteInv (acts : List RemoteAct) (m : RemoteRun) : Prop where
  readIn : ReadsOk m.inner m.serverGot
  readOut : ReadsOk m.outer m.engineGot
  fifo : ∃ lost, m.clientGot ++ (m.chan ++ (m.queue ++ lost)) = m.serverSent ∧ (m.dropped = false → lost = [])
  sent : SentOk acts m
  idle : m.srv = .idle → m.serverSent = [] ∧ m.inner = {} ∧ m.cli = .calling
  ended : m.srv = .ended → m.inner.result.isSome ∧ runnerLogsBeforeEnd acts <+: m.serverGot
  innerLogs : m.inner.logs = runnerLogs acts
  innerEnd : if m.inner.result.isSome then runnerLogsBeforeEnd acts <+: m.inner.logs ∧ acts.all notEnd = false
    else runnerLogsBeforeEnd acts = m.inner.logs ∧ acts.all notEnd = true
  cli : CliOk m
  engine : m.engineDone = true → m.outer.result.isSome ∧ wireLogs m.clientGot <+: m.engineGot

/-- What a move writes to the runner's stream. -/
def pushOf : RemoteAct → List Log
  | .runnerPush l => [l]
  | _ => []

theorem runnerLogs_snoc (acts : List RemoteAct) (a : RemoteAct) :
    runnerLogs (acts ++ [a]) = runnerLogs acts ++ pushOf a := by
  cases a <;> simp [runnerLogs, pushOf]

theorem before_snoc (acts : List RemoteAct) (a : RemoteAct) :
    runnerLogsBeforeEnd (acts ++ [a]) =
      if acts.all notEnd then runnerLogs acts ++ pushOf a else runnerLogsBeforeEnd acts := by
  unfold runnerLogsBeforeEnd
  split
  · rename_i h
    have h' : ∀ x ∈ acts, notEnd x = true := by simpa using h
    rw [List.takeWhile_append_of_pos h']
    have : ∀ p q, runnerLogs (p ++ q) = runnerLogs p ++ runnerLogs q := by simp [runnerLogs]
    rw [this]
    cases a <;> rfl
  · rename_i h
    congr 1
    induction acts with
    | nil => simp at h
    | cons b bs ih =>
      simp only [List.cons_append, List.takeWhile_cons]
      split
      · rename_i hb
        rw [ih (by simpa [hb] using h)]
      · rfl

theorem all_snoc (acts : List RemoteAct) (a : RemoteAct) :
    (acts ++ [a]).all notEnd = (acts.all notEnd && notEnd a) := by simp

theorem wireResults_mem {xs : List WireItem} : wireResults xs ≠ [] ↔ ∃ r, .result r ∈ xs := by
  induction xs with
  | nil => simp
  | cons x xs ih =>
    cases x with
    | log l => simpa [wireResults] using ih
    | result r => simp [wireResults]

theorem wireResults_map_log (ls : List Log) : wireResults (ls.map .log) = [] := by
  induction ls with
  | nil => rfl
  | cons l ls ih => simpa [wireResults] using ih

theorem wireLogs_map_log (ls : List Log) : wireLogs (ls.map .log) = ls := by
  induction ls with
  | nil => rfl
  | cons l ls ih => simpa [wireLogs] using ih

theorem RemoteInv.prefix {acts : List RemoteAct} {m : RemoteRun} (h : RemoteInv acts m) :
    ∃ rest, Produced acts m (m.clientGot ++ rest) ∧ (rest = [] → m.chan = [] ∧ m.queue = [] ∧ ∃ ps, ps = [] ∧ Unsent m ps) := by
  obtain ⟨lost, hf, _⟩ := h.fifo
  obtain ⟨ps, hp, hu⟩ := h.sent
  refine ⟨m.chan ++ (m.queue ++ (lost ++ ps)), ?_, fun hr => ?_⟩
  · rw [← hf] at hp; simpa using hp
  · simp only [List.append_eq_nil_iff] at hr
    exact ⟨hr.1, hr.2.1, ps, hr.2.2.2, hu⟩

/-- The logs the client got are among the first the server took from its runner. -/
theorem RemoteInv.logs_prefix {acts : List RemoteAct} {m : RemoteRun} (h : RemoteInv acts m) :
    wireLogs m.clientGot <+: m.serverGot := by
  obtain ⟨rest, hp, _⟩ := h.prefix
  rcases hp with ⟨hp, _⟩ | ⟨r, hp, _⟩
  · have := congrArg wireLogs hp
    rw [wireLogs_append, wireLogs_map_log] at this
    exact ⟨_, this⟩
  · have := congrArg wireLogs hp
    rw [wireLogs_append, wireLogs_append, wireLogs_map_log, wireLogs_result, List.append_nil] at this
    exact ⟨_, this⟩

/-- Once the client has the server's result, nothing more comes. -/
theorem RemoteInv.last {acts : List RemoteAct} {m : RemoteRun} (h : RemoteInv acts m)
    (hr : wireResults m.clientGot ≠ []) :
    (m.chan = [] ∧ m.queue = []) ∧ wireLogs m.clientGot = m.serverGot ∧ m.srv = .dead ∧
    runnerLogsBeforeEnd acts <+: m.serverGot ∧ ∃ r, m.inner.result = some r ∧ wireResults m.clientGot = [r] := by
  obtain ⟨rest, hp, hn⟩ := h.prefix
  rcases hp with ⟨hp, _⟩ | ⟨r, hp, h1, h2, h3⟩
  · have := congrArg wireResults hp
    rw [wireResults_append, wireResults_map_log] at this
    exact absurd (List.append_eq_nil_iff.1 this).1 hr
  · rcases List.append_eq_append_iff.1 hp with ⟨t, ht, _⟩ | ⟨t, ht, h4⟩
    · have := congrArg wireResults ht
      rw [wireResults_append, wireResults_map_log] at this
      exact absurd (List.append_eq_nil_iff.1 this.symm).1 hr
    · cases t with
      | nil =>
        simp only [List.append_nil] at ht
        rw [ht, wireResults_map_log] at hr
        exact absurd rfl hr
      | cons x t =>
        simp only [List.cons_append, List.cons.injEq] at h4
        have h5 := List.append_eq_nil_iff.1 h4.2.symm
        have h6 : m.clientGot = m.serverGot.map .log ++ [.result r] := by rw [ht, h5.1, ← h4.1]
        obtain ⟨hc, hq, ps, hps, hu⟩ := hn h5.2
        have hdead : m.srv = .dead := by
          rcases h2 with h2 | h2
          · exact h2
          · simp [Unsent, h2, hps] at hu
        refine ⟨⟨hc, hq⟩, ?_, hdead, h3, r, h1, ?_⟩
        · rw [h6, wireLogs_append, wireLogs_map_log]; simp
        · rw [h6, wireResults_append, wireResults_map_log]; rfl

/-- Moves that are not the runner's. -/
def quiet (a : RemoteAct) : Prop := pushOf a = [] ∧ notEnd a = true

theorem before_of_all {acts : List RemoteAct} (h : acts.all notEnd = true) :
    runnerLogsBeforeEnd acts = runnerLogs acts := by
  unfold runnerLogsBeforeEnd
  congr 1
  have h' : ∀ x ∈ acts, notEnd x = true := by simpa using h
  simpa using List.takeWhile_append_of_pos (l₂ := []) h'

theorem RemoteInv.quiet {acts : List RemoteAct} {a : RemoteAct} {m : RemoteRun} (ha : quiet a) (h : RemoteInv acts m) :
    RemoteInv (acts ++ [a]) m := by
  have h1 : runnerLogs (acts ++ [a]) = runnerLogs acts := by rw [runnerLogs_snoc, ha.1, List.append_nil]
  have h2 : runnerLogsBeforeEnd (acts ++ [a]) = runnerLogsBeforeEnd acts := by
    rw [before_snoc, ha.1, List.append_nil]
    split
    · rename_i hall; rw [before_of_all hall]
    · rfl
  have h3 : (acts ++ [a]).all notEnd = acts.all notEnd := by rw [all_snoc, ha.2, Bool.and_true]
  exact ⟨h.readIn, h.readOut, h.fifo, by simpa only [SentOk, Produced, h2] using h.sent, h.idle, by rw [h2]; exact h.ended,
    by rw [h1]; exact h.innerLogs, by rw [h2, h3]; exact h.innerEnd, h.cli, h.engine⟩

/-- The server's task moves, without taking anything from its runner or sending. -/
theorem SentOk.move {acts : List RemoteAct} {m m' : RemoteRun} (h : SentOk acts m) (h1 : m'.serverSent = m.serverSent)
    (h2 : m'.serverGot = m.serverGot) (hlive : ∀ x, m.srv ≠ .sending x) (hd : m.srv ≠ .dead)
    (hlive' : ∀ x, m'.srv ≠ .sending x) (h4 : m'.dropped = false → m.dropped = false) : SentOk acts m' := by
  obtain ⟨ps, hp, hu⟩ := h
  refine ⟨ps, ?_, ?_⟩
  · rcases hp with ⟨hp, _⟩ | ⟨r, _, _, h5, _⟩
    · exact .inl ⟨by rw [h1, h2]; exact hp, fun r => hlive' _⟩
    · rcases h5 with h5 | h5
      · exact absurd h5 hd
      · exact absurd h5 (hlive _)
  · have hu' : m.dropped = false → ps = [] := by
      unfold Unsent at hu
      split at hu
      · rename_i x hx; exact absurd hx (hlive x)
      · rename_i hx; exact absurd hx hd
      · exact hu
    unfold Unsent
    split
    · rename_i x hx; exact absurd hx (hlive' x)
    · trivial
    · exact fun hh => hu' (h4 hh)

/-- Neither the server's task nor its runner does anything. -/
theorem SentOk.same {acts : List RemoteAct} {m m' : RemoteRun} (h : SentOk acts m) (h1 : m'.serverSent = m.serverSent)
    (h2 : m'.serverGot = m.serverGot) (h3 : m'.srv = m.srv) (h4 : m'.dropped = m.dropped)
    (h5 : m'.inner.result = m.inner.result) : SentOk acts m' := by
  simpa only [SentOk, Produced, Unsent, h1, h2, h3, h4, h5] using h

theorem CliOk.congr {m m' : RemoteRun} (h : CliOk m) (h1 : m'.cli = m.cli) (h2 : m'.clientGot = m.clientGot)
    (h3 : m'.outer.logs = m.outer.logs) (h4 : m'.outer.result = m.outer.result)
    (h5 : m.cli = .calling → m'.srv = .idle) : CliOk m' := by
  unfold CliOk at h ⊢
  rw [h1, h2, h3, h4]
  revert h5
  cases hc : m.cli <;> simp only [hc] at h <;> intro h5
  · exact ⟨h.1, h.2.1, h.2.2.1, h5 rfl⟩
  all_goals exact h

/-- The client's stream after the client's own error. -/
theorem fail_ok {got : List WireItem} {s : StreamState} (h1 : s.logs = wireLogs got)
    (h2 : s.result = (wireResults got).head?) (msg : String) :
    (∃ own, OwnError own ∧ (s.fail ("Failed to run" ++ msg)).logs = wireLogs got ++ [own]) ∧
      (s.fail ("Failed to run" ++ msg)).result = some ((wireResults got).head?.getD (.failed 1)) := by
  rw [StreamState.fail_logs, StreamState.fail_result, h1, h2]
  exact ⟨⟨_, ⟨msg, rfl⟩, rfl⟩, rfl⟩

theorem colon (e : String) : "Failed to run: " ++ e = "Failed to run" ++ (": " ++ e) := by
  rw [← String.append_assoc]; rfl

theorem remote_step {acts : List RemoteAct} {a : RemoteAct} {m m' : RemoteRun} (h : RemoteInv acts m)
    (hs : m.step a = some m') : RemoteInv (acts ++ [a]) m' := by
  have hcli := h.cli
  cases a with
  | rpcOk =>
    simp only [RemoteRun.step] at hs
    split at hs <;> simp only [Option.some.injEq, reduceCtorEq] at hs
    rename_i hc
    subst hs
    simp only [CliOk, hc.1] at hcli
    refine RemoteInv.quiet ⟨rfl, rfl⟩
      ⟨h.readIn, h.readOut, h.fifo, ?_, by simp, by simp, h.innerLogs, h.innerEnd, ?_, h.engine⟩
    · exact h.sent.move rfl rfl (by simp [hc]) (by simp [hc]) (by simp) id
    · simp only [CliOk, hcli.1, hcli.2.1, hcli.2.2.1]
      exact ⟨rfl, rfl⟩
  | rpcErr e arrived =>
    simp only [RemoteRun.step] at hs
    split at hs <;> simp only [Option.some.injEq, reduceCtorEq] at hs
    rename_i hc
    subst hs
    simp only [CliOk, hc] at hcli
    have hi := h.idle hcli.2.2.2
    obtain ⟨⟨own, ho, hl⟩, hr⟩ := fail_ok (got := []) (s := m.outer) hcli.2.1 hcli.2.2.1 (": " ++ e)
    refine RemoteInv.quiet ⟨rfl, rfl⟩
      ⟨h.readIn, ?_, h.fifo, ?_, ?_, ?_, h.innerLogs, h.innerEnd, ?_, fun hd => ?_⟩
    · exact h.readOut.mono (StreamState.fail_index _ _) (by rw [StreamState.fail_logs]; exact List.prefix_append _ _)
    · exact h.sent.move rfl rfl (by simp [hcli]) (by simp [hcli]) (by cases arrived <;> simp) id
    · cases arrived <;> simp
    · cases arrived <;> simp
    · simp only [CliOk, colon, hcli.1]
      exact .inr ⟨own, ho, hl, hr⟩
    · have := (h.engine hd).1
      rw [hcli.2.2.1] at this; simp at this
  | srvRunOk =>
    simp only [RemoteRun.step] at hs
    split at hs <;> simp only [Option.some.injEq, reduceCtorEq] at hs
    rename_i hc
    subst hs
    refine RemoteInv.quiet ⟨rfl, rfl⟩
      ⟨h.readIn, h.readOut, h.fifo, ?_, by simp, by simp, h.innerLogs, h.innerEnd, ?_, h.engine⟩
    · exact h.sent.move rfl rfl (by simp [hc]) (by simp [hc]) (by simp) id
    · refine hcli.congr rfl rfl rfl rfl fun hcc => ?_
      simp only [CliOk, hcc] at hcli
      rw [hc] at hcli; simp at hcli
  | srvRunErr =>
    simp only [RemoteRun.step] at hs
    split at hs <;> simp only [Option.some.injEq, reduceCtorEq] at hs
    rename_i hc
    subst hs
    refine RemoteInv.quiet ⟨rfl, rfl⟩
      ⟨h.readIn, h.readOut, h.fifo, ?_, by simp, by simp, h.innerLogs, h.innerEnd, ?_, h.engine⟩
    · exact h.sent.move rfl rfl (by simp [hc]) (by simp [hc]) (by simp) id
    · refine hcli.congr rfl rfl rfl rfl fun hcc => ?_
      simp only [CliOk, hcc] at hcli
      rw [hc] at hcli; simp at hcli
  | runnerPush l =>
    simp only [RemoteRun.step] at hs
    split at hs <;> simp only [Option.some.injEq, reduceCtorEq] at hs
    rename_i hc
    subst hs
    have hb : m.inner.result.isSome = true → runnerLogsBeforeEnd (acts ++ [.runnerPush l]) = runnerLogsBeforeEnd acts := by
      intro hr
      have := h.innerEnd
      rw [if_pos hr] at this
      rw [before_snoc, this.2]; rfl
    refine ⟨h.readIn.mono rfl (List.prefix_append _ _), h.readOut, h.fifo, ?_, by simp [hc], ?_, ?_, ?_, ?_, h.engine⟩
    · obtain ⟨ps, hp, hu⟩ := h.sent
      refine ⟨ps, ?_, hu⟩
      rcases hp with hs | ⟨r, h1, h2, h3, h4⟩
      · exact .inl hs
      · exact .inr ⟨r, h1, h2, h3, by rw [hb (by rw [h2]; rfl)]; exact h4⟩
    · intro he
      have := h.ended he
      exact ⟨this.1, by rw [hb this.1]; exact this.2⟩
    · rw [runnerLogs_snoc, StreamState.push_logs, h.innerLogs]; rfl
    · have := h.innerEnd
      rw [StreamState.push_result]
      split at this
      · rename_i hr
        rw [if_pos hr, hb hr, StreamState.push_logs]
        refine ⟨this.1.trans (List.prefix_append _ _), by rw [all_snoc, this.2]; rfl⟩
      · rename_i hr
        rw [if_neg hr, before_snoc, if_pos this.2, StreamState.push_logs, h.innerLogs]
        exact ⟨rfl, by rw [all_snoc, this.2]; rfl⟩
    · refine hcli.congr rfl rfl rfl rfl fun hcc => ?_
      simp only [CliOk, hcc] at hcli
      exact absurd hcli.2.2.2 hc
  | runnerEnd r =>
    simp only [RemoteRun.step] at hs
    split at hs <;> simp only [Option.some.injEq, reduceCtorEq] at hs
    rename_i hc
    subst hs
    have hb : runnerLogsBeforeEnd (acts ++ [.runnerEnd r]) = runnerLogsBeforeEnd acts := by
      rw [before_snoc]
      split
      · rename_i hall; rw [before_of_all hall]; simp [pushOf]
      · rfl
    refine ⟨h.readIn.mono (StreamState.endSeq_index _ _) (by rw [StreamState.endSeq_logs]; exact List.prefix_rfl),
      h.readOut, h.fifo, ?_, by simp [hc], ?_, ?_, ?_, ?_, h.engine⟩
    · obtain ⟨ps, hp, hu⟩ := h.sent
      refine ⟨ps, ?_, hu⟩
      rcases hp with hs | ⟨r', h1, h2, h3, h4⟩
      · exact .inl hs
      · refine .inr ⟨r', h1, ?_, h3, by rw [hb]; exact h4⟩
        rw [StreamState.endSeq_result, h2]; rfl
    · intro he
      have := h.ended he
      rw [hb, StreamState.endSeq_result]
      exact ⟨rfl, this.2⟩
    · rw [runnerLogs_snoc, StreamState.endSeq_logs, h.innerLogs]; simp [pushOf]
    · rw [StreamState.endSeq_result, hb, StreamState.endSeq_logs, all_snoc]
      simp only [Option.isSome_some, if_true, notEnd, Bool.and_false, and_true]
      have := h.innerEnd
      split at this
      · exact this.1
      · rw [this.1]; exact List.prefix_rfl
    · refine hcli.congr rfl rfl rfl rfl fun hcc => ?_
      simp only [CliOk, hcc] at hcli
      exact absurd hcli.2.2.2 hc
  | srvPoll =>
    simp only [RemoteRun.step] at hs
    split at hs <;> try simp only [reduceCtorEq] at hs
    rename_i hc
    have hcc : m.cli = .calling → False := by
      intro hcc
      simp only [CliOk, hcc] at hcli
      rw [hc] at hcli; simp at hcli
    split at hs <;> simp only [Option.some.injEq, reduceCtorEq] at hs
    · rename_i st l hp
      subst hs
      obtain ⟨hl, rfl⟩ := StreamState.poll_item hp
      refine RemoteInv.quiet ⟨rfl, rfl⟩
        ⟨h.readIn.item hl _ rfl rfl, h.readOut, h.fifo, ?_, by simp, by simp, h.innerLogs, h.innerEnd, ?_,
          h.engine⟩
      · obtain ⟨ps, hp, hu⟩ := h.sent
        refine ⟨ps ++ [.log l], .inl ⟨?_, by simp⟩, ps, rfl, by simpa [Unsent, hc] using hu⟩
        rcases hp with ⟨hp, _⟩ | ⟨r, _, _, h3, _⟩
        · rw [← List.append_assoc, hp]; simp
        · simp [hc] at h3
      · exact hcli.congr rfl rfl rfl rfl fun hh => (hcc hh).elim
    · rename_i st hp
      subst hs
      obtain ⟨hlen, hres, rfl⟩ := StreamState.poll_eos hp
      refine RemoteInv.quiet ⟨rfl, rfl⟩
        ⟨h.readIn.mono rfl List.prefix_rfl, h.readOut, h.fifo, ?_, by simp, fun _ => ⟨hres, ?_⟩, h.innerLogs,
          h.innerEnd, ?_, h.engine⟩
      · exact h.sent.move rfl rfl (by simp [hc]) (by simp [hc]) (by simp) id
      · have := h.innerEnd
        rw [if_pos hres] at this
        simp only
        rw [h.readIn.eq, List.take_of_length_le hlen]
        exact this.1
      · exact hcli.congr rfl rfl rfl rfl fun hh => (hcc hh).elim
  | srvResult =>
    simp only [RemoteRun.step] at hs
    split at hs <;> try simp only [reduceCtorEq] at hs
    rename_i hc
    have hcc : m.cli = .calling → False := by
      intro hcc
      simp only [CliOk, hcc] at hcli
      rw [hc] at hcli; simp at hcli
    split at hs <;> simp only [Option.some.injEq] at hs
    · rename_i r hr
      subst hs
      refine RemoteInv.quiet ⟨rfl, rfl⟩
        ⟨h.readIn, h.readOut, h.fifo, ?_, by simp, by simp, h.innerLogs, h.innerEnd, ?_, h.engine⟩
      · obtain ⟨ps, hp, hu⟩ := h.sent
        refine ⟨ps ++ [.result r], .inr ⟨r, ?_, hr, .inr rfl, (h.ended hc).2⟩, ps, rfl, by simpa [Unsent, hc] using hu⟩
        rcases hp with ⟨hp, _⟩ | ⟨r, _, _, h3, _⟩
        · rw [← List.append_assoc, hp]
        · simp [hc] at h3
      · exact hcli.congr rfl rfl rfl rfl fun hh => (hcc hh).elim
    · subst hs
      refine RemoteInv.quiet ⟨rfl, rfl⟩
        ⟨h.readIn, h.readOut, h.fifo, ?_, by simp, by simp, h.innerLogs, h.innerEnd, ?_, h.engine⟩
      · exact h.sent.move rfl rfl (by simp [hc]) (by simp [hc]) (by simp) id
      exact hcli.congr rfl rfl rfl rfl fun hh => (hcc hh).elim
  | srvSend =>
    simp only [RemoteRun.step] at hs
    split at hs <;> try simp only [reduceCtorEq] at hs
    rename_i x hc
    split at hs <;> simp only [Option.some.injEq, reduceCtorEq] at hs
    rename_i hd
    subst hs
    have hcc : m.cli = .calling → False := by
      intro hcc
      simp only [CliOk, hcc] at hcli
      rw [hc] at hcli; simp at hcli
    have hnext : ∀ y, SrvPc.next x ≠ .sending y := by cases x <;> simp [SrvPc.next]
    obtain ⟨lost, hf, hl⟩ := h.fifo
    refine RemoteInv.quiet ⟨rfl, rfl⟩
      ⟨h.readIn, h.readOut, ⟨[], ?_, fun _ => rfl⟩, ?_, by cases x <;> simp [SrvPc.next],
        by cases x <;> simp [SrvPc.next], h.innerLogs, h.innerEnd, ?_, h.engine⟩
    · have := hl hd.1; subst this
      simp only [← hf, List.append_assoc, List.append_nil]
    · obtain ⟨ps, hp, hu⟩ := h.sent
      simp only [Unsent, hc] at hu
      obtain ⟨ps', rfl, hps⟩ := hu
      have := hps hd.1
      subst this
      refine ⟨[], ?_, by cases x <;> simp [Unsent, SrvPc.next]⟩
      rcases hp with ⟨hp, hx⟩ | ⟨r, hp, h2, h3, h4⟩
      · exact .inl ⟨by simpa using hp, fun r => hnext _⟩
      · refine .inr ⟨r, by simpa using hp, h2, .inl ?_, h4⟩
        simp only [hc, reduceCtorEq, SrvPc.sending.injEq, false_or] at h3
        subst h3; rfl
    · exact hcli.congr rfl rfl rfl rfl fun hh => (hcc hh).elim
  | srvSendErr =>
    simp only [RemoteRun.step] at hs
    split at hs <;> try simp only [reduceCtorEq] at hs
    rename_i x hc
    split at hs <;> simp only [Option.some.injEq, reduceCtorEq] at hs
    rename_i hd
    subst hs
    have hcc : m.cli = .calling → False := by
      intro hcc
      simp only [CliOk, hcc] at hcli
      rw [hc] at hcli; simp at hcli
    have hnext : ∀ y, SrvPc.next x ≠ .sending y := by cases x <;> simp [SrvPc.next]
    refine RemoteInv.quiet ⟨rfl, rfl⟩
      ⟨h.readIn, h.readOut, h.fifo, ?_, by cases x <;> simp [SrvPc.next],
        by cases x <;> simp [SrvPc.next], h.innerLogs, h.innerEnd, ?_, h.engine⟩
    · obtain ⟨ps, hp, hu⟩ := h.sent
      refine ⟨ps, ?_, by cases x <;> simp [Unsent, SrvPc.next, hd]⟩
      rcases hp with ⟨hp, hx⟩ | ⟨r, hp, h2, h3, h4⟩
      · exact .inl ⟨hp, fun r => hnext _⟩
      · refine .inr ⟨r, hp, h2, .inl ?_, h4⟩
        simp only [hc, reduceCtorEq, SrvPc.sending.injEq, false_or] at h3
        subst h3; rfl
    · exact hcli.congr rfl rfl rfl rfl fun hh => (hcc hh).elim
  | rxDrop =>
    simp only [RemoteRun.step] at hs
    split at hs <;> simp only [Option.some.injEq, reduceCtorEq] at hs
    rename_i hc
    subst hs
    obtain ⟨lost, hf, _⟩ := h.fifo
    refine RemoteInv.quiet ⟨rfl, rfl⟩
      ⟨h.readIn, h.readOut, ⟨m.queue ++ lost, by simpa using hf, by simp⟩, ?_, h.idle, h.ended, h.innerLogs, h.innerEnd, ?_,
        h.engine⟩
    · obtain ⟨ps, hp, hu⟩ := h.sent
      refine ⟨ps, hp, ?_⟩
      unfold Unsent at hu ⊢
      simp only
      split at hu <;> rename_i hx
      · obtain ⟨ps', h1, _⟩ := hu
        exact ⟨ps', h1, by simp⟩
      · trivial
      · simp
    · refine hcli.congr rfl rfl rfl rfl fun hcc => ?_
      simp only [CliOk, hcc] at hcli
      exact hcli.2.2.2
  | xmit =>
    simp only [RemoteRun.step] at hs
    split at hs <;> simp only [Option.some.injEq, reduceCtorEq] at hs
    rename_i x rest hq
    subst hs
    obtain ⟨lost, hf, hl⟩ := h.fifo
    refine RemoteInv.quiet ⟨rfl, rfl⟩
      ⟨h.readIn, h.readOut, ⟨lost, by rw [hq] at hf; simpa using hf, hl⟩, h.sent, h.idle, h.ended, h.innerLogs, h.innerEnd, ?_,
        h.engine⟩
    refine hcli.congr rfl rfl rfl rfl fun hcc => ?_
    simp only [CliOk, hcc] at hcli
    exact hcli.2.2.2
  | srvCrash =>
    simp only [RemoteRun.step] at hs
    split at hs <;> simp only [Option.some.injEq, reduceCtorEq] at hs
    rename_i hc
    subst hs
    refine RemoteInv.quiet ⟨rfl, rfl⟩
      ⟨h.readIn, h.readOut, h.fifo, ?_, by simp, by simp, h.innerLogs, h.innerEnd, ?_, h.engine⟩
    · obtain ⟨ps, hp, hu⟩ := h.sent
      refine ⟨ps, ?_, trivial⟩
      rcases hp with ⟨hs, _⟩ | ⟨r, h1, h2, h3, h4⟩
      · exact .inl ⟨hs, by simp⟩
      · exact .inr ⟨r, h1, h2, .inl rfl, h4⟩
    · refine hcli.congr rfl rfl rfl rfl fun hcc => ?_
      simp only [CliOk, hcc] at hcli
      exact absurd hcli.2.2.2 hc
  | cliNext =>
    simp only [RemoteRun.step] at hs
    split at hs <;> try simp only [reduceCtorEq] at hs
    rename_i hc
    simp only [CliOk, hc] at hcli
    split at hs
    · rename_i x rest hch
      simp only [Option.some.injEq] at hs
      subst hs
      refine RemoteInv.quiet ⟨rfl, rfl⟩
        ⟨h.readIn, ?_, ?_, h.sent, ?_, h.ended, h.innerLogs, h.innerEnd, ?_, fun hd => ?_⟩
      · exact h.readOut.mono (StreamState.accept_index _ _)
          (by rw [StreamState.accept_logs]; exact List.prefix_append _ _)
      · obtain ⟨lost, hf, hl⟩ := h.fifo
        exact ⟨lost, by rw [hch] at hf; simpa using hf, hl⟩
      · intro hi
        have := (h.idle hi).2.2
        rw [hc] at this; cases this
      · simp only [CliOk, hc, StreamState.accept_logs, StreamState.accept_result, hcli.1, hcli.2, wireLogs_append,
          wireResults_append]
        exact ⟨trivial, by rw [List.head?_append]⟩
      · have h1 := (h.engine hd).1
        rw [hcli.2] at h1
        have h2 : wireResults m.clientGot ≠ [] := by
          intro h0; rw [h0] at h1; simp at h1
        have := (h.last h2).1.1
        rw [hch] at this; cases this
    · rename_i hch
      split at hs <;> simp only [Option.some.injEq, reduceCtorEq] at hs
      rename_i hdead
      subst hs
      refine RemoteInv.quiet ⟨rfl, rfl⟩
        ⟨h.readIn, h.readOut, h.fifo, h.sent, ?_, h.ended, h.innerLogs, h.innerEnd, ?_, h.engine⟩
      · intro hi; rw [hdead.1] at hi; cases hi
      · simp only [CliOk]; exact .inl hcli
  | netErr e =>
    simp only [RemoteRun.step] at hs
    split at hs <;> simp only [Option.some.injEq, reduceCtorEq] at hs
    rename_i hc
    subst hs
    simp only [CliOk, hc] at hcli
    obtain ⟨⟨own, ho, hl⟩, hr⟩ := fail_ok hcli.1 hcli.2 (": " ++ e)
    refine RemoteInv.quiet ⟨rfl, rfl⟩
      ⟨h.readIn, ?_, h.fifo, h.sent, ?_, h.ended, h.innerLogs, h.innerEnd, ?_, fun hd => ?_⟩
    · exact h.readOut.mono (StreamState.fail_index _ _) (by rw [StreamState.fail_logs]; exact List.prefix_append _ _)
    · intro hi
      have := (h.idle hi).2.2
      rw [hc] at this; cases this
    · simp only [CliOk, colon]
      exact .inr ⟨own, ho, hl, hr⟩
    · rw [StreamState.fail_result]
      exact ⟨rfl, (h.engine hd).2⟩
  | setSignal v =>
    simp only [RemoteRun.step, Option.some.injEq] at hs
    subst hs
    refine RemoteInv.quiet ⟨rfl, rfl⟩
      ⟨h.readIn, h.readOut, h.fifo, h.sent, h.idle, h.ended, h.innerLogs, h.innerEnd, ?_, h.engine⟩
    refine hcli.congr rfl rfl rfl rfl fun hcc => ?_
    simp only [CliOk, hcc] at hcli
    exact hcli.2.2.2
  | cliSignal =>
    simp only [RemoteRun.step] at hs
    split at hs <;> try simp only [reduceCtorEq] at hs
    rename_i hc
    simp only [CliOk, hc] at hcli
    split at hs <;> simp only [Option.some.injEq, reduceCtorEq] at hs
    subst hs
    refine RemoteInv.quiet ⟨rfl, rfl⟩
      ⟨h.readIn, h.readOut, h.fifo, h.sent, ?_, h.ended, h.innerLogs, h.innerEnd, hcli, h.engine⟩
    intro hi
    have := (h.idle hi).2.2
    rw [hc] at this; cases this
  | sigOk =>
    simp only [RemoteRun.step] at hs
    split at hs <;> simp only [Option.some.injEq, reduceCtorEq] at hs
    rename_i v hc
    subst hs
    simp only [CliOk, hc] at hcli
    refine RemoteInv.quiet ⟨rfl, rfl⟩
      ⟨h.readIn, h.readOut, h.fifo, h.sent, ?_, h.ended, h.innerLogs, h.innerEnd, hcli, h.engine⟩
    intro hi
    have := (h.idle hi).2.2
    rw [hc] at this; cases this
  | sigErr =>
    simp only [RemoteRun.step] at hs
    split at hs <;> simp only [Option.some.injEq, reduceCtorEq] at hs
    rename_i v hc
    subst hs
    simp only [CliOk, hc] at hcli
    refine RemoteInv.quiet ⟨rfl, rfl⟩
      ⟨h.readIn, h.readOut, h.fifo, h.sent, ?_, h.ended, h.innerLogs, h.innerEnd, .inl hcli, h.engine⟩
    intro hi
    have := (h.idle hi).2.2
    rw [hc] at this; cases this
  | check =>
    simp only [RemoteRun.step] at hs
    split at hs <;> try simp only [reduceCtorEq] at hs
    rename_i hc
    have hidle : m.srv = .idle → False := by
      intro hi
      have := (h.idle hi).2.2
      rw [hc] at this; cases this
    simp only [CliOk, hc] at hcli
    split at hs <;> simp only [Option.some.injEq] at hs
    · rename_i hend
      subst hs
      refine RemoteInv.quiet ⟨rfl, rfl⟩
        ⟨h.readIn, h.readOut, h.fifo, h.sent, fun hi => (hidle hi).elim, h.ended, h.innerLogs, h.innerEnd, ?_, h.engine⟩
      simp only [CliOk]
      rcases hcli with ⟨h1, h2⟩ | ⟨own, ho, h1, h2⟩
      · rw [StreamState.isEnded, h2] at hend
        cases hr : wireResults m.clientGot with
        | nil => rw [hr] at hend; simp at hend
        | cons r rs =>
          rw [hr] at h2
          exact ⟨by rw [h2]; rfl, .inl ⟨h1, by simp⟩⟩
      · exact ⟨h2, .inr ⟨own, ho, h1⟩⟩
    · rename_i hend
      subst hs
      have hnone : m.outer.result = none := by simpa [StreamState.isEnded] using hend
      rcases hcli with ⟨h1, h2⟩ | ⟨own, ho, h1, h2⟩
      · obtain ⟨⟨own, ho, hl⟩, hr⟩ := fail_ok h1 h2 ""
        have he : "Failed to run" ++ "" = "Failed to run" := rfl
        rw [he] at hl hr
        refine RemoteInv.quiet ⟨rfl, rfl⟩
          ⟨h.readIn, ?_, h.fifo, h.sent, fun hi => (hidle hi).elim, h.ended, h.innerLogs, h.innerEnd, ?_, fun hd => ?_⟩
        · exact h.readOut.mono (StreamState.fail_index _ _)
            (by rw [StreamState.fail_logs]; exact List.prefix_append _ _)
        · simp only [CliOk]
          exact ⟨hr, .inr ⟨own, ho, hl⟩⟩
        · have := (h.engine hd).1
          rw [hnone] at this; simp at this
      · rw [hnone] at h2; cases h2
  | engPoll =>
    simp only [RemoteRun.step] at hs
    split at hs <;> try simp only [reduceCtorEq] at hs
    rename_i hd
    split at hs <;> simp only [Option.some.injEq, reduceCtorEq] at hs
    · rename_i st l hp
      subst hs
      obtain ⟨hl, rfl⟩ := StreamState.poll_item hp
      refine RemoteInv.quiet ⟨rfl, rfl⟩
        ⟨h.readIn, h.readOut.item hl _ rfl rfl, h.fifo, h.sent, h.idle, h.ended, h.innerLogs, h.innerEnd, ?_, ?_⟩
      · refine hcli.congr rfl rfl rfl rfl fun hcc => ?_
        simp only [CliOk, hcc] at hcli
        exact hcli.2.2.2
      · intro hd'; exact absurd hd' hd
    · rename_i st hp
      subst hs
      obtain ⟨hlen, hres, rfl⟩ := StreamState.poll_eos hp
      refine RemoteInv.quiet ⟨rfl, rfl⟩
        ⟨h.readIn, h.readOut.mono rfl List.prefix_rfl, h.fifo, h.sent, h.idle, h.ended, h.innerLogs, h.innerEnd, ?_,
          fun _ => ⟨hres, ?_⟩⟩
      · refine hcli.congr rfl rfl rfl rfl fun hcc => ?_
        simp only [CliOk, hcc] at hcli
        exact hcli.2.2.2
      · have hall : m.engineGot = m.outer.logs := by rw [h.readOut.eq, List.take_of_length_le hlen]
        simp only [hall]
        unfold CliOk at hcli
        split at hcli
        · rw [hcli.1]; exact List.nil_prefix
        · rw [hcli.1]; exact List.prefix_rfl
        · rw [hcli.1]; exact List.prefix_rfl
        · rcases hcli with ⟨h1, _⟩ | ⟨_, _, h1, _⟩
          · rw [h1]; exact List.prefix_rfl
          · rw [h1]; exact List.prefix_append _ _
        · rcases hcli.2 with ⟨h1, _⟩ | ⟨_, _, h1⟩
          · rw [h1]; exact List.prefix_rfl
          · rw [h1]; exact List.prefix_append _ _

theorem remote_reach {acts : List RemoteAct} {m : RemoteRun} (h : RemoteReach acts m) : RemoteInv acts m := by
  refine runs_induct (P := RemoteInv) ?_ (fun acts a s s' _ ih hs => remote_step ih hs) h
  refine ⟨⟨Nat.le_refl _, rfl⟩, ⟨Nat.le_refl _, rfl⟩, ⟨[], rfl, fun _ => rfl⟩, ⟨[], .inl ⟨rfl, by simp⟩, by simp [Unsent]⟩,
    fun _ => ⟨rfl, rfl, rfl⟩, by simp, rfl, ?_,
    ⟨rfl, rfl, rfl, rfl⟩, by simp⟩
  simp [runnerLogsBeforeEnd, runnerLogs]

end AstroRun
