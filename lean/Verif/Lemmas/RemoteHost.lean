import Verif.Spec.RemoteHost
import Verif.Lemmas.RemoteStackSignals
import Verif.Lemmas.LocalStack
import Verif.Props.RemoteStack

/-! # Lemmas: a job on remote runners that execute steps locally -/

namespace AstroRun
open Spec

/-! ## One call in one move of the stack -/

/-- What one move of the stack is for call `i`. -/
inductive CallStep (x y : RemoteExec) (i : Nat) (a : RemoteStackAct) : Prop
  | net (b : RemoteAct) (hb : (∀ v, b ≠ .setSignal v) ∧ b ≠ .engPoll) (hm : movesOf i [a] = [b]) (hs : x.net.step b = some y.net)
  | eng (b : JobAct) (m : JobM) (ha : a = .eng b) (hm : movesOf i [a] = []) (hn : y.net = x.net.engineMoved b m)
  | same (hm : movesOf i [a] = []) (hn : y.net = x.net)

theorem exec_step {s s' : RemoteStack} {a : RemoteStackAct} (hs : s.step a = some s') {i : Nat} {x : RemoteExec}
    (hx : s.execs[i]? = some x) :
    ∃ y, s'.execs[i]? = some y ∧ y.server = x.server ∧ y.command = x.command ∧
      (y.remote = x.remote ∨ ∃ v, y.remote = (x.remote.set v).state) ∧ CallStep x y i a := by
  have mov : ∀ (j : Nat) (z : RemoteExec) (n : RemoteRun) (b : RemoteAct) (a : RemoteStackAct), s.execs[j]? = some z →
      (∀ v, b ≠ .setSignal v) ∧ b ≠ .engPoll → z.net.step b = some n →
      (∀ k, movesOf k [a] = if k = j then [b] else []) →
      ∃ y, (s.moved j z n).execs[i]? = some y ∧ y.server = x.server ∧ y.command = x.command ∧ y.remote = x.remote ∧ CallStep x y i a := by
    intro j z n b a hz hb hn hmv
    rw [moved_get hz]
    split
    · rename_i e
      subst e
      rw [hx, Option.some.injEq] at hz
      subst hz
      exact ⟨_, rfl, rfl, rfl, rfl, .net b hb (by rw [hmv, if_pos rfl]) hn⟩
    · rename_i e
      exact ⟨x, hx, rfl, rfl, rfl, .same (by rw [hmv, if_neg e]) rfl⟩
  have arr : ∀ (s : RemoteStack) (sv : Id) (st : StepId) (v : Signal) (y : RemoteExec) (a : RemoteStackAct), s.execs[i]? = some y →
      y.server = x.server → y.command = x.command → y.remote = x.remote → CallStep x y i a →
      ∃ y, (s.signalArrives sv st v).execs[i]? = some y ∧ y.server = x.server ∧ y.command = x.command ∧
        (y.remote = x.remote ∨ ∃ v, y.remote = (x.remote.set v).state) ∧ CallStep x y i a := by
    intro s sv st v y a hy h1 h2 h3 h4
    rcases arrives_get s sv st v i with ⟨g, _⟩ | ⟨_, g⟩
    · exact ⟨y, by rw [g, hy], h1, h2, .inl h3, h4⟩
    · refine ⟨{ y with remote := (y.remote.set v).state }, by rw [g, hy]; rfl, h1, h2, .inr ⟨v, by rw [← h3]⟩, ?_⟩
      cases h4 with
      | net b hb hm hs => exact .net b hb hm hs
      | eng b m ha hm hn => exact .eng b m ha hm hn
      | same hm hn => exact .same hm hn
  cases a with
  | eng a =>
    simp only [RemoteStack.step] at hs
    split at hs
    · cases hs
    · simp only [Option.map_eq_some_iff] at hs
      obtain ⟨m, hm, rfl⟩ := hs
      rcases engineMoved_get (s := s) (a := a) (m := m) i with h | ⟨w, h1, h2⟩
      · exact ⟨x, by simp only [h, hx], rfl, rfl, .inl rfl, .same (by simp [movesOf]) rfl⟩
      · rw [hx, Option.some.injEq] at h1
        subst h1
        exact ⟨_, h2, rfl, rfl, .inl rfl, .eng a m rfl (by simp [movesOf]) rfl⟩
  | dispatched sv =>
    simp only [RemoteStack.step] at hs
    split at hs
    · simp only [Option.map_eq_some_iff] at hs
      obtain ⟨m, hm, rfl⟩ := hs
      have := (List.getElem?_eq_some_iff.1 hx).1
      exact ⟨x, by simp only [List.getElem?_append_left this, hx], rfl, rfl, .inl rfl, .same (by simp [movesOf]) rfl⟩
    · cases hs
  | noRunner =>
    simp only [RemoteStack.step] at hs
    split at hs
    · simp only [Option.map_eq_some_iff] at hs
      obtain ⟨m, hm, rfl⟩ := hs
      exact ⟨x, hx, rfl, rfl, .inl rfl, .same (by simp [movesOf]) rfl⟩
    · cases hs
  | net j b =>
    obtain ⟨z, n, hz, hb, hstep, hcase⟩ := rnet_step hs
    have hmv : ∀ k, movesOf k [.net j b] = if k = j then [b] else [] := by
      intro k; by_cases e : j = k <;> simp [movesOf, e, eq_comm]
    obtain ⟨y, h1, h2, h3, h4, h5⟩ := mov j z n b (.net j b) hz (byStack_false hb) hstep hmv
    rcases hcase with ⟨_, rfl⟩ | ⟨v, _, _, rfl⟩ | ⟨_, _, _, rfl⟩
    · exact ⟨y, h1, h2, h3, .inl h4, h5⟩
    · exact arr _ _ _ _ y _ h1 h2 h3 h4 h5
    · exact ⟨y, h1, h2, h3, .inl h4, h5⟩
  | signalFailed j b =>
    obtain ⟨z, n, v, hz, hstep, _, rfl⟩ := rfail_step hs
    have hmv : ∀ k, movesOf k [.signalFailed j b] = if k = j then [.sigErr] else [] := by
      intro k; by_cases e : j = k <;> simp [movesOf, e, eq_comm]
    obtain ⟨y, h1, h2, h3, h4, h5⟩ := mov j z n .sigErr (.signalFailed j b) hz (by simp) hstep hmv
    split
    · exact arr _ _ _ _ y _ h1 h2 h3 h4 h5
    · exact ⟨y, h1, h2, h3, .inl h4, h5⟩
  | stepCompleted sv r =>
    simp only [RemoteStack.step] at hs
    split at hs <;> cases hs
    exact ⟨x, hx, rfl, rfl, .inl rfl, .same (by simp [movesOf]) rfl⟩

/-- A call that was not there before is new. -/
theorem exec_new {s s' : RemoteStack} {a : RemoteStackAct} (hs : s.step a = some s') {i : Nat} {y : RemoteExec}
    (hx : s.execs[i]? = none) (hy : s'.execs[i]? = some y) : y.net = {} ∧ movesOf i [a] = [] := by
  have len : ∀ {l : List RemoteExec}, l.length = s.execs.length → l[i]? = some y → False := by
    intro l h1 h2
    have := (List.getElem?_eq_some_iff.1 h2).1
    have := List.getElem?_eq_none_iff.1 hx
    omega
  have larr : ∀ (s : RemoteStack) sv st v, (s.signalArrives sv st v).execs.length = s.execs.length := by
    intro s sv st v
    simp only [RemoteStack.signalArrives]
    split <;> simp
  have lmov : ∀ (j : Nat) (z : RemoteExec) (n : RemoteRun), (s.moved j z n).execs.length = s.execs.length := by
    intro j z n; simp [RemoteStack.moved]
  cases a with
  | eng a =>
    simp only [RemoteStack.step] at hs
    split at hs
    · cases hs
    · simp only [Option.map_eq_some_iff] at hs
      obtain ⟨m, hm, rfl⟩ := hs
      refine (len ?_ hy).elim
      simp only [RemoteStack.engineMoved]
      (repeat' split) <;> simp
  | dispatched sv =>
    simp only [RemoteStack.step] at hs
    split at hs
    · simp only [Option.map_eq_some_iff] at hs
      obtain ⟨m, hm, rfl⟩ := hs
      simp only [List.getElem?_append] at hy
      split at hy
      · rw [hx] at hy; cases hy
      · cases hj : i - s.execs.length with
        | zero =>
          simp only [hj, List.getElem?_cons_zero, Option.some.injEq] at hy
          subst hy
          exact ⟨rfl, by simp [movesOf]⟩
        | succ k => simp [hj] at hy
    · cases hs
  | noRunner =>
    simp only [RemoteStack.step] at hs
    split at hs
    · simp only [Option.map_eq_some_iff] at hs
      obtain ⟨m, hm, rfl⟩ := hs
      exact (len rfl hy).elim
    · cases hs
  | net j b =>
    obtain ⟨z, n, hz, hb, hstep, hcase⟩ := rnet_step hs
    rcases hcase with ⟨_, rfl⟩ | ⟨v, _, _, rfl⟩ | ⟨_, _, _, rfl⟩
    · exact (len (lmov j z n) hy).elim
    · exact (len (by rw [larr, lmov]) hy).elim
    · exact (len (lmov j z n) hy).elim
  | signalFailed j b =>
    obtain ⟨z, n, v, hz, hstep, _, rfl⟩ := rfail_step hs
    split at hy
    · exact (len (by rw [larr, lmov]) hy).elim
    · exact (len (lmov j z n) hy).elim
  | stepCompleted sv r =>
    simp only [RemoteStack.step] at hs
    split at hs <;> cases hs
    exact (len rfl hy).elim

/-- A move that is neither the runner's nor the start of the runner leaves the runner's stream alone. -/
theorem inner_keep {n n' : RemoteRun} {b : RemoteAct} (hb : b.byHost = false) (hs : n.step b = some n') :
    n'.inner.logs = n.inner.logs ∧ n'.inner.result = n.inner.result ∧
    (n.srv ≠ .idle ∧ n.srv ≠ .starting → n.cli ≠ .calling → n'.srv ≠ .idle ∧ n'.srv ≠ .starting) ∧
    (n.srv = .idle ∨ n.srv = .starting ∨ n.srv = .dead → n'.srv = .idle ∨ n'.srv = .starting ∨ n'.srv = .dead) := by
  cases b with
  | srvPoll =>
    simp only [RemoteRun.step] at hs
    split at hs
    · rename_i hrd
      have h1 := poll_logs n.inner 0
      have h2 := poll_result n.inner 0
      split at hs <;> cases hs
      all_goals (rename_i hp; rw [hp] at h1 h2; exact ⟨h1, h2, by simp, by simp [hrd]⟩)
    · cases hs
  | srvSend =>
    simp only [RemoteRun.step] at hs
    split at hs
    · rename_i x hx
      split at hs <;> cases hs
      exact ⟨rfl, rfl, by cases x <;> simp [SrvPc.next], by simp [hx]⟩
    · cases hs
  | srvSendErr =>
    simp only [RemoteRun.step] at hs
    split at hs
    · rename_i x hx
      split at hs <;> cases hs
      exact ⟨rfl, rfl, by cases x <;> simp [SrvPc.next], by simp [hx]⟩
    · cases hs
  | rpcErr e b =>
    simp only [RemoteRun.step] at hs
    split at hs <;> cases hs
    rename_i hc
    exact ⟨rfl, rfl, fun _ h => absurd hc h, fun _ => by cases b <;> simp⟩
  | _ =>
    first
    | (cases hb; done)
    | (simp only [RemoteRun.step] at hs
       (repeat' split at hs) <;> cases hs <;> simp_all)

theorem engineMoved_inner (n : RemoteRun) (a : JobAct) (m : JobM) :
    (n.engineMoved a m).inner = n.inner ∧ (n.engineMoved a m).srv = n.srv ∧ (n.engineMoved a m).cli = n.cli := by
  obtain ⟨h1, h2, _, h4, _⟩ := engineMoved_frame n a m
  exact ⟨h4, h2, h1⟩

/-! ## The runner's writes -/

theorem writes_self (o : StreamState) : o.writes o = [] := by
  cases h : o.result <;> simp [StreamState.writes, h]

/-- A write of the runner changes the runner's stream, and nothing else. -/
theorem runner_step {s : RemoteStack} {i : Nat} {x : RemoteExec} (hx : s.execs[i]? = some x) (hi : x.net.srv ≠ .idle)
    {b : RemoteAct} {o : StreamState}
    (hb : (∃ l, b = .runnerPush l ∧ o = (x.net.inner.push l).1) ∨ ∃ r, b = .runnerEnd r ∧ o = (x.net.inner.endSeq r).1) :
    s.step (.net i b) = some { s with execs := s.execs.set i { x with net := { x.net with inner := o } } } := by
  have hstep : x.net.step b = some { x.net with inner := o } := by
    rcases hb with ⟨l, rfl, rfl⟩ | ⟨r, rfl, rfl⟩ <;> simp [RemoteRun.step, hi]
  have hs : b.byStack = false := by rcases hb with ⟨l, rfl, rfl⟩ | ⟨r, rfl, rfl⟩ <;> rfl
  have hm : s.moved i x { x.net with inner := o } = { s with execs := s.execs.set i { x with net := { x.net with inner := o } } } := by
    simp only [RemoteStack.moved, writes_self, JobM.absorbAll, List.foldl_nil, ite_self]
  simp only [RemoteStack.step, hx, hs, hstep, Option.map_some, hm]
  rcases hb with ⟨l, rfl, rfl⟩ | ⟨r, rfl, rfl⟩ <;> simp

/-- The runner writes nothing in this move. -/
theorem before_keep {acts : List RemoteAct} {b : RemoteAct} (h1 : pushOf b = []) :
    runnerLogsBeforeEnd (acts ++ [b]) = runnerLogsBeforeEnd acts := by
  rw [before_snoc]
  split
  · rename_i h
    have h' : ∀ x ∈ acts, notEnd x = true := by simpa using h
    have e : ∀ l : List RemoteAct, (∀ x ∈ l, notEnd x = true) → l.takeWhile notEnd = l := by
      intro l
      induction l with
      | nil => intro _; rfl
      | cons y ys ih => intro g; rw [List.takeWhile_cons, if_pos (g y (by simp)), ih fun z hz => g z (by simp [hz])]
    rw [h1, List.append_nil, runnerLogsBeforeEnd, e _ h']
  · rfl

/-- A task writes only while it has no result. -/
theorem log_noresult {l l' : LocalRun} {a : LocalAct} (h : ResOk l) (hs : l.step a = some l') (hl : l'.stream.logs ≠ l.stream.logs) :
    l.stream.result = none := by
  have read : l.pc = .select .reading → l.stream.result = none := by
    intro e; simp only [ResOk, e] at h; exact h.1
  cases a <;> simp only [LocalRun.step] at hs
  case readOut | readErr | readOutFail | readErrFail =>
    split at hs
    · rename_i e; exact read e
    · cases hs
  all_goals
    repeat' (split at hs)
    all_goals simp only [Option.some.injEq, reduceCtorEq] at hs
    all_goals subst hs
    all_goals first
      | exact absurd rfl hl
      | exact absurd (endSeq_logs_eq _ _) hl

theorem share_sig {l : LocalRun} {a b : SigState} (h : l.sig.signal = a.signal) (hk : ∀ v, a.signal = some v → b.signal = some v) :
    (l.shareSignal b).sig.signal = b.signal := by
  cases hb : b.signal with
  | none =>
    simp only [LocalRun.shareSignal, hb, h]
    cases ha : a.signal with
    | none => rfl
    | some v => rw [hk v ha] at hb; cases hb
  | some w =>
    simp only [LocalRun.shareSignal, hb, set_signal, h]
    cases ha : a.signal with
    | none => rfl
    | some v => rw [hk v ha] at hb; simpa using hb

/-! ## The invariant -/

/-- `p` is a plan of the runner for a command. -/
def PlanOf (c : LocalSetup) (cmd : Command) (p : RunPlan) : Prop :=
  ∃ past mem envs, p = (startRun c.os c.arch c.workingDirectory c.plugins past mem { command := cmd, event := c.event } envs).2

/-- What is known about a task. -/
structure TaskAt (s : RemoteHost) (sacts : List RemoteStackAct) (i : Nat) (x : RemoteExec) (p : RunPlan) (l : LocalRun) : Prop where
  reach : ∃ la, LocalReach p (s.setupOf x).plugins.length la l
  logs : x.net.inner.logs = l.stream.logs
  result : x.net.inner.result = l.stream.result
  before : runnerLogsBeforeEnd (movesOf i sacts) = l.stream.logs
  sig : l.sig.signal = x.remote.signal
  srv : x.net.srv ≠ .idle ∧ x.net.srv ≠ .starting
  plan : PlanOf (s.setupOf x) x.command p

/-- Both sides see the same streams and signals, and each follows its own rules. -/
structure HostInv (servers : Id → LocalSetup) (event : Option TriggerEvent) (job : Job) (t : Time) (acts : List HostAct)
    (sacts : List RemoteStackAct) (s : RemoteHost) : Prop where
  cfg : s.servers = servers ∧ s.event = event
  net : RemoteStackReach job t sacts s.net
  origin : ∀ b ∈ sacts, (∃ i c, b = .net i c ∧ c.byHost = true ∧ c ≠ .srvRunErr) ∨ .stk b ∈ acts
  tasks : ∀ i p l, s.tasks i = some (p, l) → ∃ x, s.net.execs[i]? = some x ∧ TaskAt s sacts i x p l
  idle : ∀ (i : Nat) (x : RemoteExec), s.net.execs[i]? = some x → s.tasks i = none →
    x.net.inner.logs = [] ∧ x.net.inner.result = none ∧ (x.net.srv = .idle ∨ x.net.srv = .starting ∨ x.net.srv = .dead)

theorem remoteStackReach_snoc {job : Job} {t : Time} {acts : List RemoteStackAct} {s s' : RemoteStack} {a : RemoteStackAct}
    (h : RemoteStackReach job t acts s) (hs : s.step a = some s') : RemoteStackReach job t (acts ++ [a]) s' := runs_snoc.2 ⟨s, h, hs⟩

theorem share_tasks {s : RemoteHost} {i : Nat} {p : RunPlan} {l : LocalRun} (h : s.share.tasks i = some (p, l)) :
    ∃ l0, s.tasks i = some (p, l0) ∧ ((∃ x, s.net.execs[i]? = some x ∧ l = l0.shareSignal x.remote) ∨ s.net.execs[i]? = none ∧ l = l0) := by
  simp only [RemoteHost.share] at h
  cases ht : s.tasks i with
  | none => simp [ht] at h
  | some q =>
    obtain ⟨p0, l0⟩ := q
    cases hx : s.net.execs[i]? with
    | none => simp [ht, hx] at h; exact ⟨l0, by rw [h.1], .inr ⟨rfl, h.2.symm⟩⟩
    | some x => simp [ht, hx] at h; exact ⟨l0, by rw [h.1], .inl ⟨x, rfl, h.2.symm⟩⟩

theorem share_tasks_none {s : RemoteHost} {i : Nat} (h : s.share.tasks i = none) : s.tasks i = none := by
  simp only [RemoteHost.share] at h
  cases ht : s.tasks i with
  | none => rfl
  | some q =>
    cases hx : s.net.execs[i]? with
    | none => simp [ht, hx] at h
    | some x => simp [ht, hx] at h

/-- What the moves of a call say about its runner's stream. -/
theorem inner_facts {job : Job} {t : Time} {sacts : List RemoteStackAct} {s : RemoteStack} (h : RemoteStackReach job t sacts s)
    {i : Nat} {x : RemoteExec} (hx : s.execs[i]? = some x) :
    x.net.inner.logs = runnerLogs (movesOf i sacts) ∧ x.net.inner.result = runnerResult (movesOf i sacts) ∧
    (x.net.inner.result = none → runnerLogsBeforeEnd (movesOf i sacts) = x.net.inner.logs ∧ (movesOf i sacts).all notEnd = true) := by
  obtain ⟨na, hna, hfil⟩ := (rstackInv_reach h).nets i x hx
  obtain ⟨f1, f2, f3, f4⟩ := filter_rel na
  rw [hfil] at f1 f2 f3 f4
  have hi := remote_reach hna
  refine ⟨by rw [f2]; exact hi.innerLogs, by rw [f1]; exact inner_result hna, fun hn => ?_⟩
  have := hi.innerEnd
  rw [hn] at this
  simp only [Option.isSome_none, Bool.false_eq_true, if_false] at this
  refine ⟨by rw [f3]; exact this.1, ?_⟩
  rw [← hfil, List.all_eq_true]
  intro b hb
  exact (List.all_eq_true.1 this.2) b (List.mem_filter.1 hb).1

/-- The move of the stack is not the runner's, or only starts it; what it means for a task of another call, or of this one. -/
theorem task_net {job : Job} {t : Time} {sacts : List RemoteStackAct} {s : RemoteHost} {n : RemoteStack} {a : RemoteStackAct}
    (h : RemoteStackReach job t sacts s.net) (hs : s.net.step a = some n) {i : Nat} {x : RemoteExec} {p : RunPlan} {l : LocalRun}
    (ha : ∀ b, movesOf i [a] = [b] → b.byHost = false)
    (hx : s.net.execs[i]? = some x) (ht : TaskAt s sacts i x p l) :
    ∃ y, n.execs[i]? = some y ∧ ∀ s' : RemoteHost, s'.servers = s.servers → s'.event = s.event →
      TaskAt s' (sacts ++ [a]) i y p (l.shareSignal y.remote) := by
  obtain ⟨y, h1, h2, h3, h4, h5⟩ := exec_step hs hx
  refine ⟨y, h1, fun s' e1 e2 => ?_⟩
  have hset : s'.setupOf y = s.setupOf x := by simp only [RemoteHost.setupOf, e1, e2, h2]
  obtain ⟨sh, _⟩ := share_stream l y.remote
  have hcall : x.net.cli ≠ .calling := by
    intro hc
    obtain ⟨na, hna, _⟩ := (rstackInv_reach h).nets i x hx
    exact ht.srv.1 (calling_idle hna hc)
  have key : y.net.inner.logs = x.net.inner.logs ∧ y.net.inner.result = x.net.inner.result ∧
      (y.net.srv ≠ .idle ∧ y.net.srv ≠ .starting) ∧
      runnerLogsBeforeEnd (movesOf i (sacts ++ [a])) = runnerLogsBeforeEnd (movesOf i sacts) := by
    rw [movesOf_snoc]
    cases h5 with
    | net b hb hm hs =>
      obtain ⟨g1, g2, g3, _⟩ := inner_keep (ha b hm) hs
      refine ⟨g1, g2, g3 ht.srv hcall, ?_⟩
      rw [hm]
      refine before_keep ?_
      have := ha b hm
      cases b <;> first | rfl | (cases this; done)
    | eng b m _ hm hn =>
      obtain ⟨g1, g2, _⟩ := engineMoved_inner x.net b m
      rw [hm, hn, g1, g2, List.append_nil]
      exact ⟨rfl, rfl, ht.srv, rfl⟩
    | same hm hn =>
      rw [hm, hn, List.append_nil]
      exact ⟨rfl, rfl, ht.srv, rfl⟩
  refine ⟨?_, by rw [key.1, sh]; exact ht.logs, by rw [key.2.1, sh]; exact ht.result, by rw [key.2.2.2, sh]; exact ht.before, ?_, key.2.2.1, ?_⟩
  · obtain ⟨la, hla⟩ := ht.reach
    rw [hset]; exact share_reach hla _
  · refine share_sig ht.sig fun v hv => ?_
    rcases h4 with e | ⟨w, e⟩
    · rw [e]; exact hv
    · rw [e, set_signal, hv]; rfl
  · rw [hset, h3]; exact ht.plan

theorem byHost_moves {i : Nat} {a : RemoteStackAct} (h : a.byHost = false) (b : RemoteAct) (hb : movesOf i [a] = [b]) : b.byHost = false := by
  cases a with
  | net j c =>
    by_cases e : j = i
    · simp [movesOf, e] at hb; subst hb; exact h
    · simp [movesOf, e] at hb
  | signalFailed j c =>
    by_cases e : j = i
    · simp [movesOf, e] at hb; subst hb; rfl
    · simp [movesOf, e] at hb
  | _ => simp [movesOf] at hb

theorem idle_net {s n : RemoteStack} {a : RemoteStackAct} (hs : s.step a = some n) {i : Nat} {y : RemoteExec}
    (ha : ∀ b, movesOf i [a] = [b] → b.byHost = false) (hy : n.execs[i]? = some y)
    (h : ∀ x, s.execs[i]? = some x → x.net.inner.logs = [] ∧ x.net.inner.result = none ∧
      (x.net.srv = .idle ∨ x.net.srv = .starting ∨ x.net.srv = .dead)) :
    y.net.inner.logs = [] ∧ y.net.inner.result = none ∧ (y.net.srv = .idle ∨ y.net.srv = .starting ∨ y.net.srv = .dead) := by
  cases hx : s.execs[i]? with
  | none => rw [(exec_new hs hx hy).1]; simp
  | some x =>
    obtain ⟨h1, h2, h3⟩ := h x hx
    obtain ⟨z, k1, _, _, _, k5⟩ := exec_step hs hx
    rw [hy, Option.some.injEq] at k1
    subst k1
    cases k5 with
    | net b hb hm hs =>
      obtain ⟨g1, g2, _, g4⟩ := inner_keep (ha b hm) hs
      exact ⟨by rw [g1, h1], by rw [g2, h2], g4 h3⟩
    | eng b m _ hm hn =>
      obtain ⟨g1, g2, _⟩ := engineMoved_inner x.net b m
      rw [hn, g1, g2]; exact ⟨h1, h2, h3⟩
    | same hm hn => rw [hn]; exact ⟨h1, h2, h3⟩

/-- What a move of a task is. -/
theorem hloc_step {s s' : RemoteHost} {i : Nat} {a : LocalAct} (hs : s.step (.loc i a) = some s') :
    ∃ (p : RunPlan) (l l' : LocalRun), s.tasks i = some (p, l) ∧ (∀ v, a ≠ .setSignal v) ∧ l.step a = some l' ∧
      s' = { s with
        net := s.net.runnerWrote i (l.wrote l')
        tasks := fun j => if j = i then some (p, l') else s.tasks j } := by
  simp only [RemoteHost.step] at hs
  split at hs
  · cases hs
  · rename_i p l hget hne
    simp only [Option.map_eq_some_iff] at hs
    obtain ⟨l', hl, e⟩ := hs
    exact ⟨p, l, l', hget, fun v e => hne v e, hl, e.symm⟩
  · cases hs

/-- What `AstroRunner::run` on a server is. -/
theorem hspawned_step {s s' : RemoteHost} {i : Nat} {past : Nat → List RunnerContext} {envs : List (String × String)}
    (hs : s.step (.spawned i past envs) = some s') :
    ∃ (x : RemoteExec) (n : RemoteStack) (r : RunnerMem × RunPlan), s.net.execs[i]? = some x ∧ s.net.step (.net i .srvRunOk) = some n ∧
      PlanOf (s.setupOf x) x.command r.2 ∧
      s' = ({ s with
            net := n
            mems := fun id => if id = x.server then r.1 else s.mems id
            tasks := fun j => if j = i then some (r.2, LocalRun.initial r.2 (s.setupOf x).plugins.length) else s.tasks j } : RemoteHost).share := by
  simp only [RemoteHost.step] at hs
  split at hs
  · rename_i x hx
    simp only [Option.map_eq_some_iff] at hs
    obtain ⟨n, hn, e⟩ := hs
    exact ⟨x, n, _, hx, hn, ⟨past, s.mems x.server, envs, rfl⟩, e.symm⟩
  · cases hs

/-- What the write of a task does to its call. -/
inductive HostWrote (s : RemoteStack) (i : Nat) (x : RemoteExec) (l l' : LocalRun) : Prop
  | wrote (b : RemoteAct) (o : StreamState) (hb : b.byHost = true ∧ b ≠ .srvRunErr ∧ isFault b = false)
      (hs : s.step (.net i b) = some (s.runnerWrote i (l.wrote l')))
      (he : s.runnerWrote i (l.wrote l') = { s with execs := s.execs.set i { x with net := { x.net with inner := o } } })
      (hn : x.net.step b = some { x.net with inner := o })
      (hp : l'.stream.logs = l.stream.logs ++ pushOf b ∧ (pushOf b).length ≤ 1)
      (hr : pushOf b = [] ∨ l.stream.result = none)
      (ho : o.logs = l'.stream.logs ∧ o.result = l'.stream.result)
  | nothing (he : s.runnerWrote i (l.wrote l') = s) (hl : l'.stream.logs = l.stream.logs) (hr : l'.stream.result = l.stream.result)

theorem hostWrote {s : RemoteStack} {i : Nat} {x : RemoteExec} {l l' : LocalRun} {a : LocalAct} (hx : s.execs[i]? = some x)
    (hi : x.net.srv ≠ .idle) (hok : ResOk l) (hl : x.net.inner.logs = l.stream.logs) (hr : x.net.inner.result = l.stream.result)
    (hs : l.step a = some l') : HostWrote s i x l l' := by
  cases wrote_step hs with
  | log y h1 h2 =>
    have hw := wrote_log h1
    have hstep := runner_step hx hi (b := .runnerPush y) (.inl ⟨y, rfl, rfl⟩)
    have he : s.runnerWrote i (l.wrote l') = { s with execs := s.execs.set i { x with net := { x.net with inner := (x.net.inner.push y).1 } } } := by
      rw [hw]; simp only [RemoteStack.runnerWrote, hstep, Option.getD_some]
    refine .wrote (.runnerPush y) _ ⟨rfl, by simp, rfl⟩ (by rw [hstep, he]) he (by simp [RemoteRun.step, hi]) ⟨h1, by simp [pushOf]⟩
      (.inr (log_noresult hok hs (by rw [h1]; simp))) ⟨?_, ?_⟩
    · rw [StreamState.push_logs, hl, h1]
    · rw [h2, ← hr]; rfl
  | ended r h1 h0 h2 =>
    have hw := wrote_ended h1 h0 h2
    have hstep := runner_step hx hi (b := .runnerEnd r) (.inr ⟨r, rfl, rfl⟩)
    have he : s.runnerWrote i (l.wrote l') = { s with execs := s.execs.set i { x with net := { x.net with inner := (x.net.inner.endSeq r).1 } } } := by
      rw [hw]; simp only [RemoteStack.runnerWrote, hstep, Option.getD_some]
    refine .wrote (.runnerEnd r) _ ⟨rfl, by simp, rfl⟩ (by rw [hstep, he]) he (by simp [RemoteRun.step, hi]) ⟨by simp [pushOf, h1], by simp [pushOf]⟩
      (.inl rfl) ⟨?_, ?_⟩
    · rw [endSeq_logs_eq, hl, h1]
    · rw [endSeq_result_none (by rw [hr, h0]), h2]
  | nothing h1 h2 =>
    exact .nothing (by rw [wrote_nothing h1 h2]; rfl) h1 h2

theorem hostInv_step {servers : Id → LocalSetup} {event : Option TriggerEvent} {job : Job} {t : Time} {acts : List HostAct}
    {sacts : List RemoteStackAct} {s s' : RemoteHost} {a : HostAct} (h : HostInv servers event job t acts sacts s)
    (hs : s.step a = some s') : ∃ sacts', HostInv servers event job t (acts ++ [a]) sacts' s' := by
  have orig : ∀ b ∈ sacts, (∃ i c, b = .net i c ∧ c.byHost = true ∧ c ≠ .srvRunErr) ∨ HostAct.stk b ∈ acts ++ [a] := by
    intro b hb
    rcases h.origin b hb with g | g
    · exact .inl g
    · exact .inr (by simp [g])
  cases a with
  | stk a =>
    simp only [RemoteHost.step] at hs
    split at hs
    · cases hs
    · rename_i hbh
      simp only [Option.map_eq_some_iff] at hs
      obtain ⟨n, hn, rfl⟩ := hs
      have hbh' : a.byHost = false := by simpa using hbh
      refine ⟨sacts ++ [a], h.cfg, remoteStackReach_snoc h.net hn, ?_, fun i p l hl => ?_, fun i x hx ht => ?_⟩
      · intro b hb
        rw [List.mem_append, List.mem_singleton] at hb
        rcases hb with hb | rfl
        · exact orig b hb
        · exact .inr (by simp)
      · obtain ⟨l0, g1, g2⟩ := share_tasks hl
        simp only at g1 g2
        obtain ⟨x, hx, hta⟩ := h.tasks i p l0 g1
        obtain ⟨y, hy, hty⟩ := task_net h.net hn (byHost_moves hbh') hx hta
        rcases g2 with ⟨z, hz, rfl⟩ | ⟨hz, _⟩
        · rw [hy, Option.some.injEq] at hz
          subst hz
          exact ⟨y, hy, hty _ rfl rfl⟩
        · rw [hy] at hz; cases hz
      · exact idle_net hn (byHost_moves hbh') hx fun z hz => h.idle i z hz (share_tasks_none (s := { s with net := n }) ht)
  | spawned i past envs =>
    obtain ⟨x, n, r, hx, hn, hp, rfl⟩ := hspawned_step hs
    obtain ⟨y, h1, h2, h3, h4, h5⟩ := exec_step hn hx
    have hmi : movesOf i [RemoteStackAct.net i .srvRunOk] = [.srvRunOk] := by simp [movesOf]
    have hmj : ∀ j, j ≠ i → movesOf j [RemoteStackAct.net i .srvRunOk] = [] := by
      intro j hj; simp [movesOf, Ne.symm hj]
    have hnet : x.net.srv = .starting ∧ y.net = { x.net with srv := .reading } := by
      cases h5 with
      | net b hb hm hs =>
        rw [hmi] at hm
        cases hm
        simp only [RemoteRun.step] at hs
        split at hs
        · rename_i e; exact ⟨e, (Option.some.inj hs).symm⟩
        · cases hs
      | eng b m ha hm hn => rw [hmi] at hm; cases hm
      | same hm hn => rw [hmi] at hm; cases hm
    have htn : s.tasks i = none := by
      cases ht : s.tasks i with
      | none => rfl
      | some q =>
        obtain ⟨x', k1, k2⟩ := h.tasks i q.1 q.2 ht
        rw [hx, Option.some.injEq] at k1
        subst k1
        exact absurd hnet.1 k2.srv.2
    obtain ⟨d1, d2, d3⟩ := h.idle i x hx htn
    have hbef : runnerLogsBeforeEnd (movesOf i (sacts ++ [.net i .srvRunOk])) = [] := by
      rw [movesOf_snoc, hmi, before_keep rfl, ((inner_facts h.net hx).2.2 d2).1, d1]
    refine ⟨sacts ++ [.net i .srvRunOk], h.cfg, remoteStackReach_snoc h.net hn, ?_, fun j p l hl => ?_, fun j z hz ht => ?_⟩
    · intro b hb
      rw [List.mem_append, List.mem_singleton] at hb
      rcases hb with hb | rfl
      · exact orig b hb
      · exact .inl ⟨i, .srvRunOk, rfl, rfl, by simp⟩
    · obtain ⟨l0, g1, g2⟩ := share_tasks hl
      simp only at g1 g2
      split at g1
      · rename_i e
        subst e
        cases g1
        rcases g2 with ⟨z, hz, rfl⟩ | ⟨hz, _⟩
        · rw [h1, Option.some.injEq] at hz
          subst hz
          obtain ⟨sh, _⟩ := share_stream (LocalRun.initial r.2 (s.setupOf x).plugins.length) y.remote
          refine ⟨y, h1, ?_, by rw [hnet.2, sh]; exact d1, by rw [hnet.2, sh]; exact d2, by rw [hbef, sh]; rfl, ?_, by rw [hnet.2]; simp, ?_⟩
          · refine share_reach (la := []) ?_ _
            simp only [RemoteHost.setupOf, RemoteHost.share, h2]; rfl
          · exact share_sig (a := {}) rfl (by simp)
          · simp only [RemoteHost.setupOf, RemoteHost.share, h2, h3]; exact hp
        · rw [h1] at hz; cases hz
      · rename_i e
        obtain ⟨x', hx', hta⟩ := h.tasks j p l0 g1
        obtain ⟨y', hy', hty⟩ := task_net h.net hn (by rw [hmj j e]; simp) hx' hta
        rcases g2 with ⟨z, hz, rfl⟩ | ⟨hz, _⟩
        · rw [hy', Option.some.injEq] at hz
          subst hz
          exact ⟨y', hy', hty _ rfl rfl⟩
        · rw [hy'] at hz; cases hz
    · have := share_tasks_none ht
      simp only at this
      split at this
      · cases this
      · rename_i e
        exact idle_net hn (by rw [hmj j e]; simp) hz fun w hw => h.idle j w hw this
  | loc i a =>
    obtain ⟨p, l, l', ht, hne, hstep, rfl⟩ := hloc_step hs
    obtain ⟨x, hx, hta⟩ := h.tasks i p l ht
    obtain ⟨la, hla⟩ := hta.reach
    have hlt := (List.getElem?_eq_some_iff.1 hx).1
    have hsig := signal_step hne hstep
    cases hostWrote hx hta.srv.1 (local_reach hla).1 hta.logs hta.result hstep with
    | wrote b o hb hnet he hn hp hr ho =>
      have hmv : ∀ k, movesOf k [RemoteStackAct.net i b] = if k = i then [b] else [] := by
        intro k; by_cases e : i = k <;> simp [movesOf, e, eq_comm]
      refine ⟨sacts ++ [.net i b], h.cfg, remoteStackReach_snoc h.net hnet, ?_, fun j q k hk => ?_, fun j z hz htn => ?_⟩
      · intro c hc
        rw [List.mem_append, List.mem_singleton] at hc
        rcases hc with hc | rfl
        · exact orig c hc
        · exact .inl ⟨i, b, rfl, hb.1, hb.2.1⟩
      · simp only at hk
        simp only [he]
        split at hk
        · rename_i e
          subst e
          cases hk
          refine ⟨{ x with net := { x.net with inner := o } }, by rw [List.getElem?_set]; simp [hlt], ⟨_, localReach_snoc hla hstep⟩, ho.1, ho.2, ?_, ?_, hta.srv, hta.plan⟩
          · rw [movesOf_snoc, hmv, if_pos rfl, hp.1]
            rcases hr with hr | hr
            · rw [before_keep hr, hr, List.append_nil]; exact hta.before
            · obtain ⟨f1, f2, f3⟩ := inner_facts h.net hx
              obtain ⟨f3, f4⟩ := f3 (by rw [hta.result]; exact hr)
              rw [before_snoc, if_pos f4, ← f1, hta.logs]
          · rw [hsig]; exact hta.sig
        · rename_i e
          obtain ⟨y, hy, hty⟩ := h.tasks j q k hk
          refine ⟨y, by rw [List.getElem?_set_ne (Ne.symm e)]; exact hy, hty.reach, hty.logs, hty.result, ?_, hty.sig, hty.srv, hty.plan⟩
          rw [movesOf_snoc, hmv, if_neg e, List.append_nil]; exact hty.before
      · simp only at htn
        simp only [he] at hz
        split at htn
        · cases htn
        · rename_i e
          rw [List.getElem?_set_ne (Ne.symm e)] at hz
          exact h.idle j z hz htn
    | nothing he hl hr =>
      refine ⟨sacts, h.cfg, by simp only [he]; exact h.net, orig, fun j q k hk => ?_, fun j z hz htn => ?_⟩
      · simp only at hk
        simp only [he]
        split at hk
        · rename_i e
          subst e
          cases hk
          exact ⟨x, hx, ⟨_, localReach_snoc hla hstep⟩, by rw [hl]; exact hta.logs, by rw [hr]; exact hta.result, by rw [hl]; exact hta.before,
            by rw [hsig]; exact hta.sig, hta.srv, hta.plan⟩
        · obtain ⟨y, hy, hty⟩ := h.tasks j q k hk
          exact ⟨y, hy, hty.reach, hty.logs, hty.result, hty.before, hty.sig, hty.srv, hty.plan⟩
      · simp only at htn
        simp only [he] at hz
        split at htn
        · cases htn
        · exact h.idle j z hz htn

theorem hostInv_reach {servers : Id → LocalSetup} {event : Option TriggerEvent} {job : Job} {t : Time} {acts : List HostAct}
    {s : RemoteHost} (h : HostReach servers event job t acts s) : ∃ sacts, HostInv servers event job t acts sacts s := by
  refine runs_induct (P := fun acts s => ∃ sacts, HostInv servers event job t acts sacts s) ?_
    (fun _ _ _ _ _ ⟨sacts, ih⟩ hs => hostInv_step ih hs) h
  refine ⟨[], ⟨rfl, rfl⟩, rfl, by simp, ?_, ?_⟩ <;> simp [RemoteHost.initial, RemoteStack.initial]

end AstroRun
