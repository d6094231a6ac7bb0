import Verif.Spec.RemoteServer
import Verif.Props.RemoteTransparent

/-! # C94: a slow or vanished client does not stall the server -/

namespace AstroRun
open Spec

/-- **C94** bounded.  However slowly the client reads, the server holds at most thirty messages for it. -/
theorem C94_bounded (acts : List RemoteAct) (m : RemoteRun) (h : RemoteReach acts m) : m.queue.length ≤ 30 := by
  refine runs_induct (P := fun _ m => m.queue.length ≤ 30) (by simp) ?_ h
  intro acts a m m' _ ih hs
  cases a <;> simp only [RemoteRun.step] at hs <;> (repeat' split at hs) <;>
    simp only [Option.some.injEq, reduceCtorEq] at hs <;> subst hs <;> (try exact ih)
  · rename_i hc
    have := hc.2
    simp only [queueCapacity] at this
    simp only [List.length_append, List.length_singleton]; omega
  · simp
  · rename_i hq
    rw [hq] at ih
    simp only [List.length_cons] at ih ⊢; omega

/-- **C94** the runner never waits.  Once the request has arrived, the runner on the server can write a line or end its stream at
any moment, whatever the client and the network do. -/
theorem C94_runner_never_waits (acts : List RemoteAct) (m : RemoteRun) (_h : RemoteReach acts m) (hi : m.srv ≠ .idle)
    (l : Log) (r : RunResult) : (∃ m', m.step (.runnerPush l) = some m') ∧ ∃ m', m.step (.runnerEnd r) = some m' := by
  simp [RemoteRun.step, hi]

theorem ended_result {acts : List RemoteAct} {m : RemoteRun} (h : RemoteReach acts m) (he : RunnerEnded acts) :
    m.inner.result.isSome = true := by
  rw [inner_result h]
  obtain ⟨r, hr⟩ := he
  clear h
  induction acts with
  | nil => cases hr
  | cons a as ih =>
    rcases List.mem_cons.1 hr with rfl | hr'
    · rfl
    · cases a <;> first | rfl | exact ih hr'

theorem poll_ready {s : StreamState} (h : s.result.isSome = true) (t : Nat) :
    (∃ st l, s.poll t = (st, .item l)) ∨ ∃ st, s.poll t = (st, .eos) := by
  simp only [StreamState.poll, h, if_true]
  split
  · exact .inl ⟨_, _, rfl⟩
  · exact .inr ⟨_, rfl⟩

theorem dropped_reach {acts : List RemoteAct} {m : RemoteRun} (h : RemoteReach acts m) (hg : ReaderGone acts) :
    m.dropped = true := by
  have : ReaderGone acts → m.dropped = true := by
    refine runs_induct (P := fun acts m => ReaderGone acts → m.dropped = true) (by simp [ReaderGone]) ?_ h
    intro acts a m m' _ ih hs hg
    simp only [ReaderGone, List.mem_append, List.mem_singleton] at hg
    cases a <;> simp only [RemoteRun.step] at hs <;> (repeat' split at hs) <;>
      simp only [Option.some.injEq, reduceCtorEq] at hs <;> subst hs <;>
      first | rfl | exact ih (by simpa [ReaderGone] using hg)
  exact this hg

theorem server_can {acts : List RemoteAct} {m : RemoteRun} (h : RemoteReach acts m) (hb : ServerBusy m)
    (he : RunnerEnded acts) (hw : m.dropped = true ∨ m.queue.length < 30) :
    ∃ a m', isServerMove a = true ∧ a ≠ .srvRunErr ∧ m.step a = some m' := by
  have hres := ended_result h he
  cases hs : m.srv with
  | idle => exact absurd hs hb.1
  | dead => exact absurd hs hb.2
  | starting => exact ⟨.srvRunOk, _, rfl, by simp, by simp [RemoteRun.step, hs]; rfl⟩
  | reading =>
    rcases poll_ready hres 0 with ⟨st, l, hp⟩ | ⟨st, hp⟩
    · exact ⟨.srvPoll, _, rfl, by simp, by simp [RemoteRun.step, hs, hp]; rfl⟩
    · exact ⟨.srvPoll, _, rfl, by simp, by simp [RemoteRun.step, hs, hp]; rfl⟩
  | ended =>
    obtain ⟨r, hr⟩ := Option.isSome_iff_exists.1 hres
    exact ⟨.srvResult, _, rfl, by simp, by simp [RemoteRun.step, hs, hr]; rfl⟩
  | sending x =>
    cases hd : m.dropped with
    | true => exact ⟨.srvSendErr, _, rfl, by simp, by simp [RemoteRun.step, hs, hd]; rfl⟩
    | false =>
      rw [hd] at hw
      have : m.queue.length < 30 := by simpa using hw
      exact ⟨.srvSend, _, rfl, by simp, by simp [RemoteRun.step, hs, hd, queueCapacity, this]; rfl⟩

/-- **C94** the server waits only for its runner and for room.  When the runner has ended its stream and the server's task is not over,
the task can move, unless thirty messages wait to be read; then, one message read is enough. -/
theorem C94_waits_only_for_room (acts : List RemoteAct) (m : RemoteRun) (h : RemoteReach acts m) (hb : ServerBusy m)
    (he : RunnerEnded acts) :
    (∃ a m', isServerMove a = true ∧ m.step a = some m') ∨
    (m.queue.length = 30 ∧ ∃ m1, m.step .xmit = some m1 ∧ ∃ a m2, isServerMove a = true ∧ m1.step a = some m2) := by
  by_cases hw : m.dropped = true ∨ m.queue.length < 30
  · obtain ⟨a, m', h1, _, h3⟩ := server_can h hb he hw
    exact .inl ⟨a, m', h1, h3⟩
  · have hlen : m.queue.length = 30 := by
      have := C94_bounded acts m h
      have h2 : ¬ m.queue.length < 30 := fun hh => hw (.inr hh)
      omega
    refine .inr ⟨hlen, ?_⟩
    cases hq : m.queue with
    | nil => rw [hq] at hlen; cases hlen
    | cons x rest =>
      have hstep : m.step .xmit = some { m with queue := rest, chan := m.chan ++ [x] } := by simp [RemoteRun.step, hq]
      refine ⟨_, hstep, ?_⟩
      have hreach : RemoteReach (acts ++ [.xmit]) { m with queue := rest, chan := m.chan ++ [x] } := runs_snoc.2 ⟨m, h, hstep⟩
      obtain ⟨a, m', h1, _, h3⟩ := server_can hreach hb
        (by obtain ⟨r, hr⟩ := he; exact ⟨r, by simp [hr]⟩) (.inr (by rw [hq] at hlen; simp at hlen ⊢; omega))
      exact ⟨a, m', h1, h3⟩

/-- **C94** a client that went away holds nothing up.  Once nobody reads the server's messages, the server's task can always move
after its runner has ended. -/
theorem C94_vanished_client (acts : List RemoteAct) (m : RemoteRun) (h : RemoteReach acts m) (hb : ServerBusy m)
    (he : RunnerEnded acts) (hg : ReaderGone acts) : ∃ a m', isServerMove a = true ∧ m.step a = some m' := by
  obtain ⟨a, m', h1, _, h3⟩ := server_can h hb he (.inl (dropped_reach h hg))
  exact ⟨a, m', h1, h3⟩

/-- What the server's task still has to do. -/
def serverWork (m : RemoteRun) : Nat :=
  2 * (m.inner.logs.length - m.inner.index) +
  (match m.srv with
    | .idle | .starting => 4 | .reading => 3 | .ended => 2 | .sending (.log _) => 4 | .sending (.result _) => 1 | .dead => 0)

theorem serverWork_step {m m' : RemoteRun} {a : RemoteAct} (hin : m.inner.index ≤ m.inner.logs.length)
    (hcall : m.cli = .calling → m.srv = .idle) (hs : m.step a = some m') :
    serverWork m' + (if isServerMove a then 1 else 0) ≤ serverWork m + 2 * (pushOf a).length := by
  cases a with
  | rpcErr e b =>
    simp only [RemoteRun.step] at hs
    split at hs <;> cases hs
    rename_i hc
    simp only [serverWork, hcall hc, isServerMove, pushOf]
    cases b <;> simp
  | runnerPush l =>
    simp only [RemoteRun.step] at hs
    split at hs <;> cases hs
    simp only [serverWork, isServerMove, pushOf, StreamState.push_logs, StreamState.push_index, List.length_append,
      List.length_singleton]
    simp
    omega
  | runnerEnd r =>
    simp only [RemoteRun.step] at hs
    split at hs <;> cases hs
    simp [serverWork, isServerMove, pushOf, StreamState.endSeq_logs, StreamState.endSeq_index]
  | srvPoll =>
    simp only [RemoteRun.step] at hs
    split at hs
    · rename_i hr
      split at hs
      · rename_i st l hp
        cases hs
        obtain ⟨hl, rfl⟩ := StreamState.poll_item hp
        obtain ⟨hlt, _⟩ := List.getElem?_eq_some_iff.1 hl
        simp only [serverWork, hr, isServerMove, pushOf]
        simp
        omega
      · rename_i st hp
        cases hs
        obtain ⟨_, _, rfl⟩ := StreamState.poll_eos hp
        simp only [serverWork, hr, isServerMove, pushOf]
        simp
      · cases hs
    · cases hs
  | srvSend =>
    simp only [RemoteRun.step] at hs
    split at hs
    · rename_i x hx
      split at hs <;> cases hs
      simp only [serverWork, hx, isServerMove, pushOf]
      cases x <;> simp [SrvPc.next]
    · cases hs
  | srvSendErr =>
    simp only [RemoteRun.step] at hs
    split at hs
    · rename_i x hx
      split at hs <;> cases hs
      simp only [serverWork, hx, isServerMove, pushOf]
      cases x <;> simp [SrvPc.next]
    · cases hs
  | srvCrash =>
    simp only [RemoteRun.step] at hs
    split at hs <;> cases hs
    simp [serverWork, isServerMove, pushOf]
  | _ =>
    simp only [RemoteRun.step] at hs
    (repeat' split at hs) <;> cases hs <;>
      (simp only [serverWork, isServerMove, pushOf, List.length_nil]; simp [*])

theorem calling_idle {acts : List RemoteAct} {m : RemoteRun} (h : RemoteReach acts m) (hc : m.cli = .calling) : m.srv = .idle := by
  have := (remote_reach h).cli
  simp only [CliOk, hc] at this
  exact this.2.2.2

/-- **C94** the server finishes.  In any history at all, the server's task makes at most 4 moves of its own, and 2 for every line the
runner wrote; with `C94_waits_only_for_room` it therefore ends once the runner has ended its stream and the messages are read, and with
`C94_vanished_client` it ends also when nobody reads them. -/
theorem C94_finishes (acts : List RemoteAct) (m : RemoteRun) (h : RemoteReach acts m) :
    (acts.filter isServerMove).length ≤ 4 + 2 * (runnerLogs acts).length := by
  suffices hh : serverWork m + (acts.filter isServerMove).length ≤ 4 + 2 * (runnerLogs acts).length by omega
  refine runs_induct (P := fun acts m => serverWork m + (acts.filter isServerMove).length ≤ 4 + 2 * (runnerLogs acts).length)
    (by simp [serverWork, runnerLogs]) ?_ h
  intro acts a m m' hr ih hs
  have h1 := serverWork_step (remote_reach hr).readIn.le (calling_idle hr) hs
  rw [List.filter_append, List.length_append, runnerLogs_snoc, List.length_append]
  have h2 : (List.filter isServerMove [a]).length = if isServerMove a then 1 else 0 := by
    simp only [List.filter]; split <;> simp_all
  rw [h2]
  omega

/-- **C94** what is sent when nobody listens is the only thing lost: as long as the reader is there, everything the server has taken from
its runner is on its way, in order, or being put into the queue. -/
theorem C94_nothing_dropped (acts : List RemoteAct) (m : RemoteRun) (h : RemoteReach acts m) (hg : ¬ ReaderGone acts)
    (hc : RemoteAct.srvCrash ∉ acts) :
    m.serverGot = wireLogs (m.clientGot ++ m.chan ++ m.queue ++ (match m.srv with | .sending x => [x] | _ => [])) := by
  have hd : m.dropped = false := by
    have : ¬ ReaderGone acts → m.dropped = false := by
      refine runs_induct (P := fun acts m => ¬ ReaderGone acts → m.dropped = false) (fun _ => rfl) ?_ h
      intro acts a m m' _ ih hs hg
      have hg' : ¬ ReaderGone acts := fun hh => hg (by simp only [ReaderGone, List.mem_append]; exact .inl hh)
      cases a <;> simp only [RemoteRun.step] at hs <;> (repeat' split at hs) <;>
        simp only [Option.some.injEq, reduceCtorEq] at hs <;> subst hs <;>
        first | exact ih hg' | exact absurd (by simp [ReaderGone]) hg
    exact this hg
  have : m.dropped = false → RemoteAct.srvCrash ∉ acts →
      m.serverGot = wireLogs (m.serverSent ++ (match m.srv with | .sending x => [x] | _ => [])) := by
    refine runs_induct (P := fun acts m => m.dropped = false → RemoteAct.srvCrash ∉ acts →
      m.serverGot = wireLogs (m.serverSent ++ (match m.srv with | .sending x => [x] | _ => []))) (fun _ _ => rfl) ?_ h
    intro acts a m m' hr ih hs hd' hc'
    have hc0 : RemoteAct.srvCrash ∉ acts := fun hh => hc' (by simp [hh])
    have hcall := calling_idle hr
    cases a with
    | srvCrash => simp at hc'
    | srvSend =>
      simp only [RemoteRun.step] at hs
      split at hs
      · rename_i x hx
        split at hs <;> cases hs
        rename_i hq
        have := ih hq.1 hc0
        rw [hx] at this
        cases x <;> simp [SrvPc.next, this]
      · cases hs
    | srvSendErr =>
      simp only [RemoteRun.step] at hs
      split at hs
      · split at hs <;> cases hs
        rename_i hq
        simp only at hd'
        rw [hd'] at hq; cases hq
      · cases hs
    | srvPoll =>
      simp only [RemoteRun.step] at hs
      split at hs
      · rename_i hrd
        split at hs <;> cases hs
        · have := ih hd' hc0
          simp only [hrd, List.append_nil] at this
          simp [this, wireLogs_append]
        · have := ih hd' hc0
          simp only [hrd, List.append_nil] at this
          simp [this]
      · cases hs
    | srvResult =>
      simp only [RemoteRun.step] at hs
      split at hs
      · rename_i hrd
        have := fun hd => ih hd hc0
        simp only [hrd, List.append_nil] at this
        split at hs <;> cases hs
        · simp [this hd', wireLogs_append]
        · simp [this hd']
      · cases hs
    | rpcErr e b =>
      simp only [RemoteRun.step] at hs
      split at hs <;> cases hs
      rename_i hcc
      have := ih hd' hc0
      simp only [hcall hcc, List.append_nil] at this
      cases b <;> simp [this]
    | _ =>
      simp only [RemoteRun.step] at hs
      (repeat' split at hs) <;> cases hs <;>
        first
        | exact ih hd' hc0
        | cases hd'
        | (have := ih hd' hc0; simp_all)
  obtain ⟨lost, hf, hl⟩ := (remote_reach h).fifo
  rw [hl hd, List.append_nil] at hf
  rw [this hd hc, ← hf]
  simp

/-- A history: the runner writes `n` lines and ends, the server's task takes and sends `k` of them, and nobody reads. -/
def slowClient (n k : Nat) : List RemoteAct :=
  [.rpcOk, .srvRunOk] ++ List.replicate n (.runnerPush (Log.ofLog "x")) ++ [.runnerEnd .succeeded] ++
    (List.replicate k [.srvPoll, .srvSend]).flatten

/-- Where that leads: the queue is full and a line is waiting. -/
def fullQueue : RemoteRun := (runs RemoteRun.step {} (slowClient 40 30 ++ [.srvPoll])).getD {}

/-- The queue does get full, and the server's task then waits for room; with the reader gone it goes on. -/
example : RemoteReach (slowClient 40 30 ++ [.srvPoll]) fullQueue ∧ fullQueue.queue.length = 30 ∧ ServerBusy fullQueue ∧
    RunnerEnded (slowClient 40 30 ++ [.srvPoll]) ∧ (∀ a, isServerMove a = true → fullQueue.step a = none) ∧
    ((fullQueue.step .rxDrop).bind (·.step .srvSendErr)).isSome = true := by
  refine ⟨by unfold RemoteReach; decide +kernel, by decide +kernel, ⟨by decide +kernel, by decide +kernel⟩,
    ⟨.succeeded, by decide +kernel⟩, ?_, by decide +kernel⟩
  intro a ha
  cases a <;> first | (cases ha; done) | decide +kernel

end AstroRun
