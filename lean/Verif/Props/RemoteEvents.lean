import Verif.Props.Remote

/-! # C53–C56: events, signals and registration of the remote runner -/

namespace AstroRun
open Spec

/-! ## C53 -/

/-- What is known about runner `c`, none of whose requests failed. -/
structure FwdInv {ε : Type} (m : Fwd ε) : Prop where
  le : m.next ≤ m.emitted.length
  start : m.pc = .connecting → m.clients = [] ∧ m.next = 0
  none : m.clients = [] → m.delivered = []
  suffix : ∀ e rest, m.pc = .sending e rest → rest <:+ m.clients ∧ ∃ n, m.next = n + 1 ∧ m.emitted[n]? = some e
  got : m.clients.Nodup → ∀ c ∈ m.clients, (∀ e, (c, e) ∉ m.failed) →
    (∀ e rest, m.pc = .sending e rest → c ∈ rest → gotBy m c ++ [e] = m.emitted.take m.next) ∧
    ((∀ e rest, m.pc = .sending e rest → c ∉ rest) → gotBy m c = m.emitted.take m.next)

theorem gotBy_snoc {ε : Type} (m : Fwd ε) (c c' : Id) (e : ε) (pc : FwdPc ε) :
    gotBy { m with pc := pc, delivered := m.delivered ++ [(c', e)] } c = gotBy m c ++ (if c' = c then [e] else []) := by
  simp only [gotBy, List.filter_append, List.map_append]
  congr 1
  by_cases h : c' = c <;> simp [h]

theorem fwd_step {ε : Type} {m m' : Fwd ε} {a : FwdAct ε} (h : FwdInv m) (hs : m.step a = some m') : FwdInv m' := by
  have htake : ∀ e : ε, (m.emitted ++ [e]).take m.next = m.emitted.take m.next := fun e =>
    List.take_append_of_le_length h.le
  cases a with
  | emit e =>
    simp only [Fwd.step, Option.some.injEq] at hs
    subst hs
    refine ⟨by simpa using Nat.le_succ_of_le h.le, h.start, h.none, fun e' rest hp => ?_, fun hn c hc hf => ?_⟩
    · obtain ⟨h1, n, h2, h3⟩ := h.suffix e' rest hp
      refine ⟨h1, n, h2, ?_⟩
      obtain ⟨hlt, _⟩ := List.getElem?_eq_some_iff.1 h3
      simp only
      rw [List.getElem?_append_left hlt, h3]
    · have := h.got hn c hc hf
      refine ⟨fun e' rest hp hcr => ?_, fun hh => ?_⟩
      · exact (this.1 e' rest hp hcr).trans (htake e).symm
      · exact (this.2 hh).trans (htake e).symm
  | connected cs =>
    simp only [Fwd.step] at hs
    split at hs <;> simp only [Option.some.injEq, reduceCtorEq] at hs
    rename_i hpc
    subst hs
    have h0 := h.start hpc
    have hd := h.none h0.1
    refine ⟨h.le, by simp, fun _ => hd, by simp, fun hn c hc hf => ⟨by simp, fun _ => ?_⟩⟩
    simp [gotBy, hd, h0.2]
  | recv =>
    have main : ∀ (hpc : m.pc ≠ .connecting ∧ ∀ e rest, m.pc = .sending e rest → rest = []),
        (if m.emitted.length - m.next > broadcastCapacity then some { m with pc := FwdPc.stopped }
          else match m.emitted[m.next]? with
            | some e => some { m with next := m.next + 1, pc := .sending e m.clients }
            | none => none) = some m' → FwdInv m' := by
      intro hpc hs
      have hall : ∀ c, ∀ e rest, m.pc = .sending e rest → c ∉ rest := by
        intro c e rest hp; rw [hpc.2 e rest hp]; simp
      split at hs
      · simp only [Option.some.injEq] at hs
        subst hs
        exact ⟨h.le, by simp, h.none, by simp, fun hn c hc hf => ⟨by simp, fun _ => (h.got hn c hc hf).2 (hall c)⟩⟩
      · split at hs <;> simp only [Option.some.injEq, reduceCtorEq] at hs
        rename_i e he
        subst hs
        obtain ⟨hlt, _⟩ := List.getElem?_eq_some_iff.1 he
        refine ⟨hlt, by simp, h.none, ?_, fun hn c hc hf => ⟨?_, fun hh => absurd hc (hh _ _ rfl)⟩⟩
        · intro e' rest hp
          simp only [FwdPc.sending.injEq] at hp
          exact ⟨hp.2 ▸ List.suffix_rfl, m.next, rfl, hp.1 ▸ he⟩
        · intro e' rest hp _
          simp only [FwdPc.sending.injEq] at hp
          rw [← hp.1, List.take_add_one, he]
          have := (h.got hn c hc hf).2 (hall c)
          exact congrArg (· ++ [e]) this
    simp only [Fwd.step] at hs
    split at hs
    · rename_i hpc
      refine main ⟨by simp [hpc], by simp [hpc]⟩ hs
    · rename_i e hpc
      refine main ⟨by simp [hpc], ?_⟩ hs
      intro e' rest hp
      rw [hpc] at hp
      simp only [FwdPc.sending.injEq] at hp
      exact hp.2.symm
    · cases hs
  | sendOk =>
    simp only [Fwd.step] at hs
    split at hs <;> simp only [Option.some.injEq, reduceCtorEq] at hs
    rename_i e c0 cs hpc
    subst hs
    obtain ⟨hsuf, n, hn1, hn2⟩ := h.suffix _ _ hpc
    refine ⟨h.le, by simp, fun hc => ?_, fun e' rest hp => ?_, fun hn c hc hf => ?_⟩
    · simp only at hc
      rw [hc] at hsuf
      simp at hsuf
    · simp only [FwdPc.sending.injEq] at hp
      refine ⟨hp.2 ▸ (List.suffix_cons _ _).trans hsuf, n, hn1, hp.1 ▸ hn2⟩
    · have hnd : (c0 :: cs).Nodup := hsuf.sublist.nodup hn
      have hg := h.got hn c hc hf
      rw [gotBy_snoc]
      refine ⟨fun e' rest hp hcr => ?_, fun hh => ?_⟩
      · simp only [FwdPc.sending.injEq] at hp
        obtain ⟨rfl, rfl⟩ := hp
        have hne : c0 ≠ c := by
          rintro rfl
          exact (List.nodup_cons.1 hnd).1 hcr
        simp only [hne, if_false, List.append_nil]
        exact hg.1 _ _ hpc (List.mem_cons_of_mem _ hcr)
      · have hnin := hh _ _ rfl
        by_cases hcc : c0 = c
        · subst hcc
          simp only [if_true]
          exact hg.1 _ _ hpc (by simp)
        · simp only [hcc, if_false, List.append_nil]
          refine hg.2 fun e' rest hp => ?_
          rw [hpc] at hp
          simp only [FwdPc.sending.injEq] at hp
          rw [← hp.2]
          simp [hnin, Ne.symm hcc]
  | sendErr =>
    simp only [Fwd.step] at hs
    split at hs <;> simp only [Option.some.injEq, reduceCtorEq] at hs
    rename_i e c0 cs hpc
    subst hs
    obtain ⟨hsuf, n, hn1, hn2⟩ := h.suffix _ _ hpc
    refine ⟨h.le, by simp, h.none, fun e' rest hp => ?_, fun hn c hc hf => ?_⟩
    · simp only [FwdPc.sending.injEq] at hp
      refine ⟨hp.2 ▸ (List.suffix_cons _ _).trans hsuf, n, hn1, hp.1 ▸ hn2⟩
    · have hf' : ∀ e, (c, e) ∉ m.failed := fun e' he => hf e' (by simp [he])
      have hcc : c0 ≠ c := by
        rintro rfl
        exact hf e (by simp)
      have hg := h.got hn c hc hf'
      refine ⟨fun e' rest hp hcr => ?_, fun hh => ?_⟩
      · simp only [FwdPc.sending.injEq] at hp
        obtain ⟨rfl, rfl⟩ := hp
        exact hg.1 _ _ hpc (List.mem_cons_of_mem _ hcr)
      · have hnin := hh _ _ rfl
        refine hg.2 fun e' rest hp => ?_
        rw [hpc] at hp
        simp only [FwdPc.sending.injEq] at hp
        rw [← hp.2]
        simp [hnin, Ne.symm hcc]

theorem fwd_reach {ε : Type} {acts : List (FwdAct ε)} {m : Fwd ε} (h : FwdReach acts m) : FwdInv m := by
  refine runs_induct (P := fun _ m => FwdInv m) ?_ (fun _ _ _ _ _ ih hs => fwd_step ih hs) h
  exact ⟨Nat.le_refl _, fun _ => ⟨rfl, rfl⟩, fun _ => rfl, by simp, by simp⟩

/-- The forwarding loop stops only when it has fallen behind. -/
theorem fwd_stopped {ε : Type} {acts : List (FwdAct ε)} {m : Fwd ε} (h : FwdReach acts m) (hs : m.pc = .stopped) :
    ∃ p q m', acts = p ++ q ∧ FwdReach p m' ∧ m'.emitted.length - m'.next > broadcastCapacity := by
  revert hs
  refine runs_induct (step := Fwd.step) (s0 := ({} : Fwd ε)) (P := fun acts m => m.pc = .stopped →
    ∃ p q m', acts = p ++ q ∧ FwdReach p m' ∧ m'.emitted.length - m'.next > broadcastCapacity) (by simp) ?_ h
  intro as a s s' hr ih hs hst
  by_cases hp : s.pc = .stopped
  · obtain ⟨p, q, m', h1, h2, h3⟩ := ih hp
    exact ⟨p, q ++ [a], m', by simp [h1], h2, h3⟩
  · refine ⟨as, [a], s, rfl, hr, ?_⟩
    cases a <;> simp only [Fwd.step] at hs <;> (repeat' split at hs) <;>
      simp only [Option.some.injEq, reduceCtorEq] at hs <;> subst hs <;> simp_all

/-- **C53** (partial) A connected runner none of whose requests failed got the emitted events in order, without gaps,
from the first one after `start` subscribed.  If the loop never fell more than 32 events behind, it is still running, and
whenever it has nothing to do the runner has got every event.  Missing for the full claim: the loop may fall behind,
see `C53_refuted`. -/
theorem C53_in_order_partial {ε : Type} (acts : List (FwdAct ε)) (m : Fwd ε) (h : FwdReach acts m)
    (hn : m.clients.Nodup) (c : Id) (hc : c ∈ m.clients) (hf : ∀ e, (c, e) ∉ m.failed) :
    gotBy m c <+: m.emitted ∧
    ((∀ p q m', acts = p ++ q → FwdReach p m' → m'.emitted.length - m'.next ≤ 32) →
      m.pc ≠ .stopped ∧ (m.step .recv = none → m.step .sendOk = none → gotBy m c = m.emitted)) := by
  have hi := fwd_reach h
  have hg := hi.got hn c hc hf
  refine ⟨?_, fun hlag => ?_⟩
  · by_cases hh : ∀ e rest, m.pc = .sending e rest → c ∉ rest
    · rw [hg.2 hh]; exact List.take_prefix _ _
    · simp only [not_forall, Classical.not_not] at hh
      obtain ⟨e, rest, hp, hcr⟩ := hh
      have := hg.1 e rest hp hcr
      exact (List.prefix_append _ _).trans (this ▸ List.take_prefix _ _)
  · have hns : m.pc ≠ .stopped := by
      intro hst
      obtain ⟨p, q, m', h1, h2, h3⟩ := fwd_stopped h hst
      have := hlag p q m' h1 h2
      simp only [broadcastCapacity] at h3
      omega
    refine ⟨hns, fun hr hso => ?_⟩
    have hl := hlag acts [] m (by simp) h
    have hend : m.emitted[m.next]? = none → gotBy m c = m.emitted := by
      intro he
      have := hg.2 ?_
      · rw [this, List.take_of_length_le (List.getElem?_eq_none_iff.1 he)]
      · intro e rest hp
        cases rest with
        | nil => simp
        | cons c' cs => simp [Fwd.step, hp] at hso
    cases hpc : m.pc with
    | connecting =>
      have := (hi.start hpc).1
      rw [this] at hc; simp at hc
    | stopped => exact absurd hpc hns
    | waiting =>
      simp only [Fwd.step, hpc] at hr
      split at hr
      · cases hr
      · split at hr <;> simp only [reduceCtorEq] at hr
        rename_i he; exact hend he
    | sending e rest =>
      cases rest with
      | cons c' cs => simp [Fwd.step, hpc] at hso
      | nil =>
        simp only [Fwd.step, hpc] at hr
        split at hr
        · cases hr
        · split at hr <;> simp only [reduceCtorEq] at hr
          rename_i he; exact hend he

namespace FwdEx
/-- Two events, two runners, the second runner's first request fails. -/
def ok : List (FwdAct Nat) :=
  [.emit 1, .connected ["a", "b"], .recv, .sendOk, .emit 2, .sendErr, .recv, .sendOk, .sendOk]
/-- 33 events while connecting. -/
def late : List (FwdAct Nat) := (List.range 33).map .emit ++ [.connected ["a"], .recv]
/-- The state after a schedule. -/
def after (acts : List (FwdAct Nat)) : Fwd Nat := (runs Fwd.step {} acts).getD {}
end FwdEx

example : FwdReach FwdEx.ok (FwdEx.after FwdEx.ok) ∧ (FwdEx.after FwdEx.ok).clients.Nodup ∧
    "a" ∈ (FwdEx.after FwdEx.ok).clients ∧ (FwdEx.after FwdEx.ok).failed = [("b", 1)] ∧
    gotBy (FwdEx.after FwdEx.ok) "a" = [1, 2] ∧ (FwdEx.after FwdEx.ok).step .recv = none := by
  refine ⟨?_, by decide, by decide, by decide, by decide, by decide⟩
  unfold FwdReach; rfl

theorem fwd_dead {ε : Type} {m m' : Fwd ε} {more : List (FwdAct ε)} (hs : m.pc = .stopped)
    (h : runs Fwd.step m more = some m') : m'.pc = .stopped ∧ m'.delivered = m.delivered := by
  refine runs_induct (step := Fwd.step) (s0 := m)
    (P := fun _ m' => m'.pc = .stopped ∧ m'.delivered = m.delivered) ⟨hs, rfl⟩ ?_ h
  intro as a s s' _ ih hst
  cases a <;> simp only [Fwd.step, ih.1] at hst <;> simp only [Option.some.injEq, reduceCtorEq] at hst
  subst hst
  exact ⟨rfl, ih.2⟩

/-- **C53 is false of the code**: 33 notifications emitted while `start` is still connecting are too many for the
channel; the forwarding loop ends at its first `recv`, and the runner, although connected and reachable, gets none of
them, nor anything emitted later. -/
theorem C53_refuted : ∃ (acts : List (FwdAct Nat)) (m : Fwd Nat), FwdReach acts m ∧ m.clients = ["a"] ∧ m.failed = [] ∧
    m.emitted = List.range 33 ∧
    ∀ more m', runs Fwd.step m more = some m' → gotBy m' "a" = [] := by
  refine ⟨FwdEx.late, FwdEx.after FwdEx.late, ?_, by decide, by decide, by decide, fun more m' hm => ?_⟩
  · unfold FwdReach; decide
  · have := fwd_dead (by decide) hm
    rw [gotBy, this.2]
    decide

/-! ## C54 -/

/-- What the client's task has done with the engine's signal. -/
structure SendInv (m : RemoteRun) : Prop where
  sent : m.sigSent = [] ∨ ∃ v, m.sigSent = [v] ∧ m.sig.signal = some v ∧ m.sig.isNotified = true
  busy : ∀ v, m.cli = .signalling v → m.sigSent = [] ∧ m.sig.signal = some v ∧ m.sig.isNotified = true

theorem remote_set_signal (s : SigState) (v w : Signal) (h : s.signal = some w) : (s.set v).state.signal = some w := by
  simp [SigState.set, h]

theorem send_step {m m' : RemoteRun} {a : RemoteAct} (h : SendInv m) (hs : m.step a = some m') : SendInv m' := by
  cases a with
  | setSignal v =>
    simp only [RemoteRun.step, Option.some.injEq] at hs
    subst hs
    refine ⟨?_, fun w hw => ?_⟩
    · rcases h.sent with h1 | ⟨w, h1, h2, h3⟩
      · exact .inl h1
      · exact .inr ⟨w, h1, remote_set_signal _ _ _ h2, by rw [remote_set_isNotified]; exact h3⟩
    · obtain ⟨h1, h2, h3⟩ := h.busy w hw
      exact ⟨h1, remote_set_signal _ _ _ h2, by rw [remote_set_isNotified]; exact h3⟩
  | cliSignal =>
    simp only [RemoteRun.step] at hs
    split at hs <;> try simp only [reduceCtorEq] at hs
    split at hs <;> simp only [Option.some.injEq, reduceCtorEq] at hs
    rename_i hp
    obtain ⟨h1, h2, rfl⟩ := sig_poll_some hp
    subst hs
    have hnil : m.sigSent = [] := by
      rcases h.sent with h3 | ⟨w, _, _, h4⟩
      · exact h3
      · rw [h1] at h4; cases h4
    refine ⟨.inl hnil, fun w hw => ?_⟩
    simp only [CliPc.signalling.injEq] at hw
    exact ⟨hnil, hw ▸ h2, rfl⟩
  | sigOk =>
    simp only [RemoteRun.step] at hs
    split at hs <;> simp only [Option.some.injEq, reduceCtorEq] at hs
    rename_i v hc
    subst hs
    obtain ⟨h1, h2, h3⟩ := h.busy v hc
    exact ⟨.inr ⟨v, by simp [h1], h2, h3⟩, by simp⟩
  | _ =>
    simp only [RemoteRun.step] at hs
    (repeat' split at hs) <;> simp only [Option.some.injEq, reduceCtorEq] at hs <;> subst hs <;>
      first
      | exact ⟨h.sent, h.busy⟩
      | exact ⟨h.sent, by simp⟩

/-- **C54** The client sends at most one signal for a step to its runner, and only the one the engine set. -/
theorem C54_client_sends_own_signal (acts : List RemoteAct) (m : RemoteRun) (h : RemoteReach acts m) :
    m.sigSent = [] ∨ ∃ v, m.sigSent = [v] ∧ m.sig.signal = some v := by
  have : SendInv m :=
    runs_induct (P := fun _ m => SendInv m) ⟨.inl rfl, by simp⟩ (fun _ _ _ _ _ ih hs => send_step ih hs) h
  rcases this.sent with h1 | ⟨v, h1, h2, _⟩
  · exact .inl h1
  · exact .inr ⟨v, h1, h2⟩

/-- The part of a state that only starts and completions change. -/
structure SigInv (w : SigNet) : Prop where
  table : ∀ sv st i, (w.at sv).get? st = some i → ∃ r, w.runs[i]? = some r ∧ r.step = st ∧ r.server = sv
  origin : ∀ r ∈ w.runs, ∀ v, r.remote.signal = some v →
    ∃ r' ∈ w.runs, r'.step = r.step ∧ r'.server = r.server ∧ r'.engine.signal = some v

theorem at_insert (w : SigNet) (sv sv' : Id) (t : AMap StepId Nat) (rs : List SigRun) :
    SigNet.at { runs := rs, signals := w.signals.insert sv t } sv' = if sv = sv' then t else w.at sv' := by
  simp only [SigNet.at, AMap.get?_insert]
  split <;> rfl

theorem sig_table_step {w w' : SigNet} {a : SigAct} (hs : w.step a = some w') (sv : Id) (st : StepId) :
    (w'.at sv).get? st = match a with
      | .start st' sv' => if st' = st ∧ sv' = sv then some w.runs.length else (w.at sv).get? st
      | .completed st' sv' => if st' = st ∧ sv' = sv then none else (w.at sv).get? st
      | _ => (w.at sv).get? st := by
  cases a with
  | start st' sv' =>
    simp only [SigNet.step, Option.some.injEq] at hs
    subst hs
    rw [at_insert]
    by_cases h : sv' = sv
    · subst h
      simp [AMap.get?_insert]
    · simp [h]
  | completed st' sv' =>
    simp only [SigNet.step, Option.some.injEq] at hs
    subst hs
    rw [at_insert]
    by_cases h : sv' = sv
    · subst h
      simp [AMap.get?_erase]
    · simp [h]
  | set i v =>
    simp only [SigNet.step] at hs
    split at hs <;> simp only [Option.some.injEq, reduceCtorEq] at hs
    subst hs; rfl
  | forward i =>
    simp only [SigNet.step] at hs
    split at hs <;> try simp only [reduceCtorEq] at hs
    split at hs <;> simp only [Option.some.injEq, reduceCtorEq] at hs
    subst hs
    simp only [SigNet.deliver]
    split <;> rfl
  | forwardErr i =>
    simp only [SigNet.step] at hs
    split at hs <;> try simp only [reduceCtorEq] at hs
    split at hs <;> simp only [Option.some.injEq, reduceCtorEq] at hs
    subst hs; rfl

/-- Changing the engine's or the server's signal of a run does not change which run it is. -/
theorem modify_cases {α : Type} {l : List α} {i : Nat} {f : α → α} {x : α} (h : x ∈ l.modify i f) :
    x ∈ l ∨ ∃ y, l[i]? = some y ∧ x = f y := by
  obtain ⟨j, hj⟩ := List.mem_iff_getElem?.1 h
  rw [List.getElem?_modify] at hj
  by_cases hij : i = j
  · subst hij
    cases hl : l[i]? with
    | none => rw [hl] at hj; simp at hj
    | some y =>
      rw [hl] at hj
      simp at hj
      exact .inr ⟨y, rfl, hj.symm⟩
  · simp [hij] at hj
    exact .inl (List.mem_of_getElem? hj)

theorem mem_modify_of {α : Type} {l : List α} {i j : Nat} {f : α → α} {x : α} (h : l[j]? = some x) :
    (l.modify i f)[j]? = some (if i = j then f x else x) := by
  rw [List.getElem?_modify, h]
  by_cases hij : i = j <;> simp [hij]

theorem sig_step {w w' : SigNet} {a : SigAct} (h : SigInv w) (hs : w.step a = some w') : SigInv w' := by
  -- runs keep step and server, engine signals stay
  have keep : ∀ i (f : SigRun → SigRun), (∀ r, (f r).step = r.step ∧ (f r).server = r.server ∧
      (∀ v, r.engine.signal = some v → (f r).engine.signal = some v) ∧ (f r).remote = r.remote) →
      SigInv { w with runs := w.runs.modify i f } := by
    intro i f hf
    refine ⟨fun sv st k hk => ?_, fun r hr v hv => ?_⟩
    · obtain ⟨r, h1, h2, h3⟩ := h.table sv st k hk
      refine ⟨_, mem_modify_of h1, ?_⟩
      split
      · exact ⟨by rw [(hf r).1, h2], by rw [(hf r).2.1, h3]⟩
      · exact ⟨h2, h3⟩
    · have : ∃ r0 ∈ w.runs, r0.step = r.step ∧ r0.server = r.server ∧ r0.remote = r.remote := by
        rcases modify_cases hr with hr | ⟨y, hy, rfl⟩
        · exact ⟨r, hr, rfl, rfl, rfl⟩
        · exact ⟨y, List.mem_of_getElem? hy, (hf y).1.symm, (hf y).2.1.symm, (hf y).2.2.2.symm⟩
      obtain ⟨r0, h0, h1, h2, h3⟩ := this
      obtain ⟨r', h4, h5, h6, h7⟩ := h.origin r0 h0 v (by rw [h3]; exact hv)
      obtain ⟨j, hj⟩ := List.mem_iff_getElem?.1 h4
      refine ⟨_, List.mem_of_getElem? (mem_modify_of (i := i) (f := f) hj), ?_⟩
      split
      · exact ⟨by rw [(hf r').1, h5, h1], by rw [(hf r').2.1, h6, h2], (hf r').2.2.1 _ h7⟩
      · exact ⟨by rw [h5, h1], by rw [h6, h2], h7⟩
  cases a with
  | start st sv =>
    have ht := sig_table_step hs
    simp only [SigNet.step, Option.some.injEq] at hs
    subst hs
    refine ⟨fun sv' st' k hk => ?_, fun r hr v hv => ?_⟩
    · rw [ht] at hk
      simp only at hk
      split at hk
      · rename_i he
        simp only [Option.some.injEq] at hk
        subst hk
        exact ⟨{ step := st, server := sv }, by simp, he.1, he.2⟩
      · obtain ⟨r, h1, h2⟩ := h.table sv' st' k hk
        refine ⟨r, ?_, h2⟩
        obtain ⟨hlt, _⟩ := List.getElem?_eq_some_iff.1 h1
        simp only
        rw [List.getElem?_append_left hlt, h1]
    · rcases List.mem_append.1 hr with hr | hr
      · obtain ⟨r', h1, h2⟩ := h.origin r hr v hv
        exact ⟨r', List.mem_append_left _ h1, h2⟩
      · simp only [List.mem_singleton] at hr
        subst hr
        cases hv
  | completed st sv =>
    have ht := sig_table_step hs
    simp only [SigNet.step, Option.some.injEq] at hs
    subst hs
    refine ⟨fun sv' st' k hk => ?_, h.origin⟩
    rw [ht] at hk
    simp only at hk
    split at hk
    · cases hk
    · exact h.table sv' st' k hk
  | set i v =>
    simp only [SigNet.step] at hs
    split at hs <;> simp only [Option.some.injEq, reduceCtorEq] at hs
    subst hs
    exact keep i _ fun r => ⟨rfl, rfl, fun v' hv' => remote_set_signal _ _ _ hv', rfl⟩
  | forwardErr i =>
    simp only [SigNet.step] at hs
    split at hs <;> try simp only [reduceCtorEq] at hs
    rename_i r0 hr0
    split at hs <;> simp only [Option.some.injEq, reduceCtorEq] at hs
    rename_i sg v hp
    obtain ⟨_, h2, rfl⟩ := sig_poll_some hp
    subst hs
    -- the engine's signal of run `i` is only marked as seen
    have : w.runs.modify i (fun r => { r with engine := { r0.engine with isNotified := true } }) =
        w.runs.modify i (fun r => { r with engine := { r.engine with isNotified := true } }) := by
      apply List.ext_getElem?
      intro j
      rw [List.getElem?_modify, List.getElem?_modify]
      by_cases hij : i = j
      · subst hij; rw [hr0]; simp
      · simp [hij]
    rw [this]
    exact keep i _ fun r => ⟨rfl, rfl, fun _ hv => hv, rfl⟩
  | forward i =>
    simp only [SigNet.step] at hs
    split at hs <;> try simp only [reduceCtorEq] at hs
    rename_i r0 hr0
    split at hs <;> simp only [Option.some.injEq, reduceCtorEq] at hs
    rename_i sg v hp
    obtain ⟨_, h2, rfl⟩ := sig_poll_some hp
    have heq : w.runs.modify i (fun r => { r with engine := { r0.engine with isNotified := true } }) =
        w.runs.modify i (fun r => { r with engine := { r.engine with isNotified := true } }) := by
      apply List.ext_getElem?
      intro j
      rw [List.getElem?_modify, List.getElem?_modify]
      by_cases hij : i = j
      · subst hij; rw [hr0]; simp
      · simp [hij]
    rw [heq] at hs
    have h1 : SigInv { w with runs := w.runs.modify i (fun r => { r with engine := { r.engine with isNotified := true } }) } :=
      keep i _ fun r => ⟨rfl, rfl, fun _ hv => hv, rfl⟩
    have hsrc : ∃ r' ∈ w.runs.modify i (fun r => { r with engine := { r.engine with isNotified := true } }),
        r'.step = r0.step ∧ r'.server = r0.server ∧ r'.engine.signal = some v := by
      refine ⟨_, List.mem_of_getElem? (mem_modify_of hr0), ?_⟩
      simp only [if_true]
      exact ⟨trivial, trivial, h2⟩
    revert hs h1 hsrc
    generalize w.runs.modify i (fun r => { r with engine := { r.engine with isNotified := true } }) = rs
    intro hs h1 hsrc
    simp only [SigNet.deliver] at hs
    split at hs
    · rename_i k hk
      subst hs
      refine ⟨fun sv' st' j hj => ?_, fun r hr v' hv' => ?_⟩
      · obtain ⟨r, h3, h4⟩ := h1.table sv' st' j hj
        refine ⟨_, mem_modify_of h3, ?_⟩
        split
        · exact h4
        · exact h4
      · have lift : ∀ r' ∈ rs, ∃ r'' ∈ rs.modify k (fun r => { r with remote := (r.remote.set v).state }),
            r''.step = r'.step ∧ r''.server = r'.server ∧ r''.engine = r'.engine := by
          intro r' hr'
          obtain ⟨j, hj⟩ := List.mem_iff_getElem?.1 hr'
          refine ⟨_, List.mem_of_getElem? (mem_modify_of hj), ?_⟩
          split <;> exact ⟨rfl, rfl, rfl⟩
        rcases modify_cases hr with hr | ⟨y, hy, rfl⟩
        · obtain ⟨r', h3, h4, h5, h6⟩ := h1.origin r hr v' hv'
          obtain ⟨r'', h7, h8, h9, h10⟩ := lift r' h3
          exact ⟨r'', h7, by rw [h8, h4], by rw [h9, h5], by rw [h10, h6]⟩
        · simp only [SigState.set] at hv'
          split at hv'
          · obtain ⟨r', h3, h4, h5, h6⟩ := h1.origin y (List.mem_of_getElem? hy) v' hv'
            obtain ⟨r'', h7, h8, h9, h10⟩ := lift r' h3
            exact ⟨r'', h7, by rw [h8, h4], by rw [h9, h5], by rw [h10, h6]⟩
          · simp only [Option.some.injEq] at hv'
            subst hv'
            obtain ⟨y', hy', hy1, hy2⟩ := h1.table _ _ _ hk
            have : y' = y := by
              have := hy'.symm.trans hy
              simpa using this
            subst this
            obtain ⟨r', h3, h4, h5, h6⟩ := hsrc
            obtain ⟨r'', h7, h8, h9, h10⟩ := lift r' h3
            exact ⟨r'', h7, by rw [h8, h4, hy1], by rw [h9, h5, hy2], by rw [h10, h6]⟩
    · subst hs
      exact h1

theorem sig_reach {acts : List SigAct} {w : SigNet} (h : SigReach acts w) : SigInv w :=
  runs_induct (P := fun _ w => SigInv w) ⟨by simp [SigNet.at], by simp⟩ (fun _ _ _ _ _ ih hs => sig_step ih hs) h

/-- **C54** A run on a server sees a signal only if the engine set that signal for a run of the same step on the same
server; if a step is started only once on a server, that is the run itself. -/
theorem C54_only_own_step (acts : List SigAct) (w : SigNet) (h : SigReach acts w) (i : Nat) (r : SigRun)
    (hr : w.runs[i]? = some r) (v : Signal) (hv : r.remote.signal = some v) :
    (∃ (j : Nat) (r' : SigRun), w.runs[j]? = some r' ∧ r'.step = r.step ∧ r'.server = r.server ∧ r'.engine.signal = some v) ∧
    ((∀ (j : Nat) (r' : SigRun), w.runs[j]? = some r' → r'.step = r.step → r'.server = r.server → j = i) → r.engine.signal = some v) := by
  obtain ⟨r', h1, h2, h3, h4⟩ := (sig_reach h).origin r (List.mem_of_getElem? hr) v hv
  obtain ⟨j, hj⟩ := List.mem_iff_getElem?.1 h1
  refine ⟨⟨j, r', hj, h2, h3, h4⟩, fun hu => ?_⟩
  have := hu j r' hj h2 h3
  subst this
  rw [hr] at hj
  cases hj
  exact h4

theorem sig_table_keeps {w w' : SigNet} {post : List SigAct} {st : StepId} {sv : Id}
    (h1 : SigAct.start st sv ∉ post) (h2 : SigAct.completed st sv ∉ post) (hm : runs SigNet.step w post = some w') :
    (w'.at sv).get? st = (w.at sv).get? st := by
  induction post generalizing w with
  | nil => simp only [runs, Option.some.injEq] at hm; rw [hm]
  | cons a as ih =>
    simp only [runs] at hm
    split at hm
    · rename_i w1 hw1
      rw [ih (fun hh => h1 (List.mem_cons_of_mem _ hh)) (fun hh => h2 (List.mem_cons_of_mem _ hh)) hm,
        sig_table_step hw1]
      cases a with
      | start st' sv' =>
        simp only
        rw [if_neg]
        rintro ⟨rfl, rfl⟩
        exact h1 (by simp)
      | completed st' sv' =>
        simp only
        rw [if_neg]
        rintro ⟨rfl, rfl⟩
        exact h2 (by simp)
      | _ => rfl
    · cases hm

/-- What a successful forwarding does. -/
theorem forward_spec {w w' : SigNet} {i : Nat} (hs : w.step (.forward i) = some w') :
    ∃ r v, w.runs[i]? = some r ∧ r.engine.signal = some v ∧
      ∀ j rj, w.runs[j]? = some rj → ∃ rj', w'.runs[j]? = some rj' ∧ rj'.step = rj.step ∧ rj'.server = rj.server ∧
        rj'.remote = (if (w.at r.server).get? r.step = some j then (rj.remote.set v).state else rj.remote) := by
  simp only [SigNet.step] at hs
  split at hs <;> try simp only [reduceCtorEq] at hs
  rename_i r hr
  split at hs <;> simp only [Option.some.injEq, reduceCtorEq] at hs
  rename_i sg v hp
  obtain ⟨_, h2, rfl⟩ := sig_poll_some hp
  refine ⟨r, v, hr, h2, fun j rj hj => ?_⟩
  have h0 : ∃ r1, (w.runs.modify i (fun r' => { r' with engine := { r.engine with isNotified := true } }))[j]? = some r1 ∧
      r1.step = rj.step ∧ r1.server = rj.server ∧ r1.remote = rj.remote := by
    refine ⟨_, mem_modify_of hj, ?_⟩
    split <;> exact ⟨rfl, rfl, rfl⟩
  obtain ⟨r1, h3, h4, h5, h6⟩ := h0
  simp only [SigNet.deliver] at hs
  have hat : SigNet.at { w with runs := w.runs.modify i (fun r' => { r' with engine := { r.engine with isNotified := true } }) } r.server
      = w.at r.server := rfl
  rw [hat] at hs
  split at hs
  · rename_i k hk
    subst hs
    refine ⟨_, mem_modify_of h3, ?_⟩
    rw [hk]
    by_cases hkj : k = j
    · simp [hkj, h4, h5, h6]
    · simp [hkj, h4, h5, h6]
  · rename_i hk
    subst hs
    refine ⟨r1, h3, h4, h5, ?_⟩
    rw [hk]
    simp [h6]

/-- **C54** While a step runs on a server (started by `pre`'s next move, not completed there and not started there again
since), a signal that the client forwards for it sets the signal of exactly that run: it is set afterwards, to the
engine's value unless it was set before, and no other run's signal on any server changes. -/
theorem C54_delivered (pre post : List SigAct) (st : StepId) (sv : Id) (w0 w w' : SigNet)
    (h0 : SigReach pre w0) (h : SigReach (pre ++ .start st sv :: post) w)
    (h1 : SigAct.start st sv ∉ post) (h2 : SigAct.completed st sv ∉ post)
    (hs : w.step (.forward w0.runs.length) = some w') :
    ∃ r r' v, w.runs[w0.runs.length]? = some r ∧ w'.runs[w0.runs.length]? = some r' ∧ r.engine.signal = some v ∧
      r'.remote.signal = some (r.remote.signal.getD v) ∧
      ∀ j rj, j ≠ w0.runs.length → w.runs[j]? = some rj → ∃ rj', w'.runs[j]? = some rj' ∧ rj'.remote = rj.remote := by
  obtain ⟨r, v, hr, hv, hall⟩ := forward_spec hs
  -- the server holds this run's signal
  have htab : (w.at sv).get? st = some w0.runs.length := by
    obtain ⟨w1, hw1, hw2⟩ := runs_split h
    have : w1 = w0 := by unfold SigReach at h0; rw [h0] at hw1; cases hw1; rfl
    subst this
    simp only [runs] at hw2
    split at hw2
    · rename_i w2 hw3
      rw [sig_table_keeps h1 h2 hw2, sig_table_step hw3]
      simp
    · cases hw2
  obtain ⟨r1, hr1, hr2, hr3⟩ := (sig_reach h).table _ _ _ htab
  rw [hr] at hr1
  cases hr1
  rw [hr2, hr3, htab] at hall
  obtain ⟨r', h3, _, _, h6⟩ := hall _ r hr
  refine ⟨r, r', v, hr, h3, hv, ?_, fun j rj hj hrj => ?_⟩
  · rw [h6, if_pos rfl]
    simp only [SigState.set]
    split
    · rename_i x hx; rw [hx]; rfl
    · rename_i hx; rw [hx]; rfl
  · obtain ⟨rj', h7, _, _, h8⟩ := hall j rj hrj
    refine ⟨rj', h7, ?_⟩
    rw [h8, if_neg]
    simp only [Option.some.injEq]
    exact Ne.symm hj

/-- **C54** A signal for a step that the server never started, or that has completed there and was not started again,
changes nothing. -/
theorem C54_unknown_ignored (acts : List SigAct) (w : SigNet) (h : SigReach acts w) (st : StepId) (sv : Id)
    (hu : SigAct.start st sv ∉ acts ∨
      ∃ pre post, acts = pre ++ .completed st sv :: post ∧ SigAct.start st sv ∉ post) (v : Signal) :
    w.deliver sv st v = w := by
  have hgone : ∀ (as : List SigAct) (a b : SigNet), SigAct.start st sv ∉ as → (a.at sv).get? st = none →
      runs SigNet.step a as = some b → (b.at sv).get? st = none := by
    intro as
    induction as with
    | nil => intro a b _ ha hr; simp only [runs, Option.some.injEq] at hr; rw [← hr]; exact ha
    | cons x as ih =>
      intro a b hn ha hr
      simp only [runs] at hr
      split at hr
      · rename_i a1 ha1
        refine ih a1 b (fun hh => hn (List.mem_cons_of_mem _ hh)) ?_ hr
        rw [sig_table_step ha1]
        cases x with
        | start st' sv' =>
          simp only
          rw [if_neg]
          · exact ha
          · rintro ⟨rfl, rfl⟩
            exact hn (by simp)
        | completed st' sv' =>
          simp only
          split
          · rfl
          · exact ha
        | _ => exact ha
      · cases hr
  have hnone : (w.at sv).get? st = none := by
    rcases hu with hu | ⟨pre, post, rfl, hu⟩
    · exact hgone acts {} w hu (by simp [SigNet.at]) h
    · obtain ⟨w1, hw1, hw2⟩ := runs_split h
      simp only [runs] at hw2
      split at hw2
      · rename_i w2 hw3
        refine hgone post w2 w hu ?_ hw2
        rw [sig_table_step hw3]
        simp
      · cases hw2
  simp [SigNet.deliver, hnone]

namespace SigEx
/-- Steps 0 and 1 of a job on server `a`, step 0 of another one on `b`; step 1 is cancelled; step 0 completes and is then
timed out. -/
def acts : List SigAct :=
  [.start ⟨"w", "j", 0⟩ "a", .start ⟨"w", "j", 1⟩ "a", .start ⟨"w", "k", 0⟩ "b", .set 1 .cancel, .forward 1,
   .completed ⟨"w", "j", 0⟩ "a", .set 0 .timeout, .forward 0]
/-- The state after a schedule. -/
def after (acts : List SigAct) : SigNet := (runs SigNet.step {} acts).getD {}
end SigEx

open SigEx in
example : SigReach acts (after acts) ∧
    (after acts).runs.map (fun r => r.remote.signal) = [none, some .cancel, none] ∧
    (after acts).runs.map (fun r => r.engine.signal) = [some .timeout, some .cancel, none] := by
  refine ⟨?_, by decide, by decide⟩
  unfold SigReach; rfl

open SigEx in
example : SigReach [.start ⟨"w", "j", 0⟩ "a"] (after [.start ⟨"w", "j", 0⟩ "a"]) ∧
    SigReach ([.start ⟨"w", "j", 0⟩ "a"] ++ .start ⟨"w", "j", 1⟩ "a" :: [.start ⟨"w", "k", 0⟩ "b", .set 1 .cancel])
      (after (acts.take 4)) ∧
    ((after (acts.take 4)).step (.forward 1)).isSome := by
  refine ⟨?_, ?_, by decide⟩
  · unfold SigReach; rfl
  · unfold SigReach; rfl

/-! ## C55 -/

theorem connect_ok {v : String} {a : Except Error RunnerMeta} {id : Id} {md : RunnerMeta} :
    connect v a = .ok (id, md) ↔ a = .ok md ∧ md.version = v ∧ md.id = id := by
  unfold connect
  cases a with
  | error e => simp
  | ok md' =>
    by_cases hv : md'.version = v
    · simp only [hv, ne_eq, not_true_eq_false, if_false, Except.ok.injEq, Prod.mk.injEq]
      constructor
      · rintro ⟨rfl, rfl⟩; exact ⟨rfl, hv, rfl⟩
      · rintro ⟨rfl, _, rfl⟩; exact ⟨rfl, rfl⟩
    · simp only [ne_eq, hv, not_false_eq_true, if_true, reduceCtorEq, Except.ok.injEq, false_iff]
      rintro ⟨rfl, h, _⟩
      exact hv h

theorem connectAll_get {v : String} (as : List (Except Error RunnerMeta)) (cs : AMap Id RunnerMeta) (id : Id) :
    (connectAll v cs as).get? id = (cs.get? id).or
      (as.findSome? fun
        | .ok md => if md.version = v ∧ md.id = id then some md else none
        | .error _ => none) := by
  induction as generalizing cs with
  | nil => simp [connectAll]
  | cons a as ih =>
    simp only [connectAll, List.findSome?_cons]
    split
    · rename_i id' md hc
      obtain ⟨rfl, h1, h2⟩ := connect_ok.1 hc
      subst h2
      split
      · rename_i hcon
        rw [ih]
        by_cases hid : md.id = id
        · subst hid
          simp only [AMap.contains] at hcon
          obtain ⟨x, hx⟩ := Option.isSome_iff_exists.1 hcon
          simp [hx]
        · simp [hid]
      · rename_i hcon
        rw [ih, AMap.get?_insert]
        by_cases hid : md.id = id
        · subst hid
          have : AMap.get? cs md.id = none := by
            simp only [AMap.contains, Bool.not_eq_true] at hcon
            simpa using hcon
          simp [h1, this]
        · simp [hid]
    · rename_i e hc
      rw [ih]
      cases a with
      | error e => rfl
      | ok md =>
        by_cases hv : md.version = v
        · have := (connect_ok (v := v) (a := .ok md) (id := md.id) (md := md)).2 ⟨rfl, hv, rfl⟩
          rw [this] at hc
          cases hc
        · simp [hv]

/-- **C55** After connecting to any list of urls: the runner available under an id is the first one in the list that
answered with that id and the client's own version; there is one entry per id; and failed connections, or servers of
another version, make no difference. -/
theorem C55_registration (version : String) (answers : List (Except Error RunnerMeta)) :
    (∀ id md, (id, md) ∈ connectAll version [] answers ↔
      ∃ n : Nat, answers[n]? = some (.ok md) ∧ md.version = version ∧ md.id = id ∧
        ∀ (k : Nat) (md' : RunnerMeta), k < n → answers[k]? = some (.ok md') → md'.version = version → md'.id ≠ id) ∧
    (connectAll version [] answers).keys.Nodup ∧
    connectAll version [] answers = connectAll version []
      (answers.filter fun | .ok md => md.version == version | .error _ => false) := by
  have hg : GoodClients (connectAll version [] answers) := connectAll_good ⟨by simp [AMap.keys], by simp⟩ _
  refine ⟨fun id md => ?_, hg.1, ?_⟩
  · have hiff : (id, md) ∈ connectAll version [] answers ↔ (connectAll version [] answers).get? id = some md :=
      ⟨AMap.get?_of_mem hg.1, AMap.mem_of_get?⟩
    rw [hiff, connectAll_get]
    simp only [AMap.get?_nil, Option.none_or]
    clear hiff hg
    induction answers with
    | nil => simp
    | cons a as ih =>
      rw [List.findSome?_cons]
      cases a with
      | error e =>
        refine Iff.trans ih ?_
        constructor
        · rintro ⟨n, h1, h2, h3, h4⟩
          refine ⟨n + 1, h1, h2, h3, fun k md' hk hk' => ?_⟩
          cases k with
          | zero => simp at hk'
          | succ k => exact h4 k md' (by omega) hk'
        · rintro ⟨n, h1, h2, h3, h4⟩
          cases n with
          | zero => simp at h1
          | succ n => exact ⟨n, h1, h2, h3, fun k md' hk hk' => h4 (k + 1) md' (by omega) hk'⟩
      | ok m0 =>
        simp only
        by_cases hm : m0.version = version ∧ m0.id = id
        · rw [if_pos hm]
          simp only [Option.some.injEq]
          constructor
          · rintro rfl
            exact ⟨0, rfl, hm.1, hm.2, fun k md' hk => absurd hk (by omega)⟩
          · rintro ⟨n, h1, h2, h3, h4⟩
            cases n with
            | zero => simpa using h1
            | succ n => exact absurd hm.2 (h4 0 m0 (by omega) rfl hm.1)
        · rw [if_neg hm]
          refine Iff.trans ih ?_
          constructor
          · rintro ⟨n, h1, h2, h3, h4⟩
            refine ⟨n + 1, h1, h2, h3, fun k md' hk hk' hv hi => ?_⟩
            cases k with
            | zero =>
              simp only [List.getElem?_cons_zero, Option.some.injEq, Except.ok.injEq] at hk'
              subst hk'
              exact hm ⟨hv, hi⟩
            | succ k => exact h4 k md' (by omega) hk' hv hi
          · rintro ⟨n, h1, h2, h3, h4⟩
            cases n with
            | zero =>
              simp only [List.getElem?_cons_zero, Option.some.injEq, Except.ok.injEq] at h1
              subst h1
              exact absurd ⟨h2, h3⟩ hm
            | succ n => exact ⟨n, h1, h2, h3, fun k md' hk hk' => h4 (k + 1) md' (by omega) hk'⟩
  · have : ∀ (as : List (Except Error RunnerMeta)) cs, connectAll version cs as = connectAll version cs
        (as.filter fun | .ok md => md.version == version | .error _ => false) := by
      intro as
      induction as with
      | nil => intro cs; rfl
      | cons a as ih =>
        intro cs
        rw [List.filter_cons]
        cases a with
        | error e => simp [connectAll, connect, ih]
        | ok md =>
          by_cases hv : md.version = version
          · simp only [hv, BEq.rfl, if_true, connectAll]
            split
            · split <;> exact ih _
            · exact ih _
          · simp [connectAll, connect, hv, ih]
    exact this answers []

example : connectAll "1" [] RemoteEx.answers =
    [("b", { id := "b", version := "1", supportHost := false }), ("a", { id := "a", version := "1" })] := by decide

/-! ## C56 -/

theorem hookLoop_ok {hs : List RemoteHook} {c c' : Command} : remoteHookLoop hs c = .ok c' ↔ PassedThrough hs c c' := by
  induction hs generalizing c with
  | nil =>
    simp only [remoteHookLoop, Except.ok.injEq]
    constructor
    · rintro rfl; exact .nil _
    · rintro ⟨⟩; rfl
  | cons h hs ih =>
    simp only [remoteHookLoop]
    constructor
    · intro hh
      split at hh
      · rename_i c1 hc1; exact .cons hc1 (ih.1 hh)
      · cases hh
    · rintro ⟨⟩
      rename_i c1 h1 h2
      rw [h1]
      exact ih.2 h2

/-- **C56** With the remote runner client as the runner, the step to be executed is the one obtained by passing what the
engine's plugins made of it through every connected runner in turn, without a condition; if one of them fails, it is
the step as the plugins made it. -/
theorem C56_remote_hook (plugins : List Observer) (hooks : List RemoteHook) (s : Step) (runner : Observer)
    (hr : runner.onBeforeRunStep = remoteBeforeRunStep hooks) :
    (∀ c, PassedThrough hooks (driverBeforeRunStep plugins s).toCommand c →
      (callBeforeRunStep plugins runner s).toCommand = c ∧ (callBeforeRunStep plugins runner s).on = none) ∧
    ((¬ ∃ c, PassedThrough hooks (driverBeforeRunStep plugins s).toCommand c) →
      callBeforeRunStep plugins runner s = driverBeforeRunStep plugins s) := by
  refine ⟨fun c hc => ?_, fun hn => ?_⟩
  · simp only [callBeforeRunStep, hr, remoteBeforeRunStep, hookLoop_ok.2 hc]
    exact ⟨rfl, rfl⟩
  · simp only [callBeforeRunStep, hr, remoteBeforeRunStep]
    split
    · rename_i s2 h2
      split at h2
      · rename_i c hc; exact absurd ⟨c, hookLoop_ok.1 hc⟩ hn
      · cases h2
    · rfl

/-- **C56** On the server the step goes through the server's plugins in order, a failing one being skipped, and then
through its runner, whose failure makes the whole hook fail. -/
theorem C56_server_hook (plugins : List Observer) (runner : Observer) (c c' : Command) :
    serverBeforeRunStep plugins runner c = .ok c' ↔
      ∃ s, runner.onBeforeRunStep (driverBeforeRunStep plugins c.toStep) = .ok s ∧ s.toCommand = c' := by
  simp only [serverBeforeRunStep]
  split
  · rename_i s hs
    simp [hs]
  · rename_i e he
    simp [he]

namespace RemoteEx
/-- A remote runner that appends to the script. -/
def appends (t : String) : RemoteHook := serverBeforeRunStep [] { onBeforeRunStep := fun s => .ok { s with run := s.run ++ t } }
/-- A remote runner whose hook fails. -/
def fails : RemoteHook := serverBeforeRunStep [] { onBeforeRunStep := fun _ => .error (.error "no") }
/-- A step with a condition. -/
def conditional : Step := { id := ⟨"w", "j", 0⟩, run := "x", on := some (.event ["push"]) }
end RemoteEx

open RemoteEx in
example : PassedThrough [appends "1", appends "2"] conditional.toCommand { conditional.toCommand with run := "x12" } ∧
    callBeforeRunStep [] { onBeforeRunStep := remoteBeforeRunStep [appends "1", appends "2"] } conditional =
      { conditional with run := "x12", on := none } ∧
    callBeforeRunStep [] { onBeforeRunStep := remoteBeforeRunStep [appends "1", fails] } conditional = conditional :=
  ⟨.cons rfl (.cons rfl (.nil _)), rfl, rfl⟩

open RemoteEx in
example : ¬ ∃ c, PassedThrough [appends "1", fails] conditional.toCommand c := by
  rintro ⟨c, hc⟩
  cases hc with
  | cons _ h2 => cases h2 with
    | cons h3 _ => cases h3

end AstroRun
