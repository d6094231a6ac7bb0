import Verif.Lemmas.FairSched
import Verif.Props.FairRemote
import Verif.Props.FairLocalFutures

/-! # C118: fair executions of an engine on the remote runner exist -/

namespace AstroRun
open Spec FairSched FairRemoteLem

/-- A schedule with its end, whose runs are apart and whose hooks keep jobs. -/
def RemoteFine (acts : List RemoteEngineAct) (E : RemoteEngine) : Prop :=
  RemoteEngineReach acts E ∧ Apart (remoteEngineMoves acts) ∧ RemoteEngineHooksKeepJobs acts

/-- One more move. -/
theorem RemoteFine.snoc {acts : List RemoteEngineAct} {E E' : RemoteEngine} {y : RemoteEngineAct} (h : RemoteFine acts E)
    (hs : E.step y = some E') (h1 : ∀ wf, y ≠ .sys (.start wf))
    (h2 : ∀ r i b s, y = .sys (.task r i (.nextStep b s)) → ∀ t, taskAt E.sys r i = some t → s.id.jobId = t.job.id) :
    RemoteFine (acts ++ [y]) E' := by
  obtain ⟨hr, ha, hk⟩ := h
  refine ⟨runs_snoc.2 ⟨E, hr, hs⟩, ?_, ?_⟩
  · rw [remoteEngineMoves_snoc]
    cases y with
    | sys x =>
      refine ha.snoc (fun wf e => h1 wf (by rw [e])) ?_
      rintro r i b s rfl wf hwf
      obtain ⟨sa, hsa, hf, -⟩ := rengine_sys hr hk
      simp only [RemoteEngine.step, SysAct.byRunner, Bool.false_eq_true, if_false, Option.map_eq_some_iff] at hs
      obtain ⟨M, hM, -⟩ := hs
      obtain ⟨ρ, t, _, hρ, ht, _⟩ := task_act hM
      have e := engineOk_reach (apart_filter (hf ▸ ha)) hsa
      have hw : (Spec.started (remoteEngineMoves acts))[r]? = some ρ.wf := by
        rw [← hf, started_filter, ← e.wfs]; simp [hρ]
      rw [hw] at hwf
      cases hwf
      have h3 := h2 r i b s rfl t ht
      obtain ⟨ρ', hρ', ht'⟩ := taskAt_some ht
      rw [hρ] at hρ'
      cases hρ'
      have hj := (runJobs_reach hsa r ρ hρ).tasks i t ht'
      have hown := ha.own ρ.wf (List.mem_of_getElem? hw) _ _ hj
      rw [← hown, ← h3]
      rfl
    | _ => simpa [RemoteEngineAct.engPart] using ha
  · intro pre r i b s post he E1 hE1 t ht
    rcases List.eq_nil_or_concat post with rfl | ⟨post', x, rfl⟩
    · obtain ⟨rfl, hx⟩ := List.append_inj' he rfl
      simp only [List.cons.injEq, and_true] at hx
      have : E1 = E := by
        unfold RemoteEngineReach at hr hE1
        rw [hr] at hE1
        exact (Option.some.inj hE1).symm
      subst this
      exact h2 r i b s hx t ht
    · have : acts ++ [y] = (pre ++ RemoteEngineAct.sys (.task r i (.nextStep b s)) :: post') ++ [x] := by simpa using he
      obtain ⟨rfl, _⟩ := List.append_inj' this rfl
      exact hk pre r i b s post' rfl E1 hE1 t ht

theorem remoteFine_prefix {p q : List RemoteEngineAct} (ha : Apart (remoteEngineMoves (p ++ q))) (hk : RemoteEngineHooksKeepJobs (p ++ q)) :
    Apart (remoteEngineMoves p) ∧ RemoteEngineHooksKeepJobs p := by
  constructor
  · have : remoteEngineMoves (p ++ q) = remoteEngineMoves p ++ remoteEngineMoves q := by simp [remoteEngineMoves, List.filterMap_append]
    rw [this] at ha
    exact ha.prefix
  · intro pre r i b s post he
    exact hk pre r i b s (post ++ q) (by rw [he]; simp)

/-- A call whose connection is broken and whose client's task still waits for messages. -/
def BrokenCall (E : RemoteEngine) (r i n : Nat) : Prop := ∃ x, callAt E r i n = some x ∧ x.net.dropped = true ∧ x.net.cli = .streaming

/-- The kinds of moves: of main tasks, job tasks, their reading the stream, calls; requests arriving, the runners on the servers ending
their streams, and broken connections being noticed. -/
def rkindOf (c r i n : Nat) : RemoteEngineAct → Prop :=
  match c with
  | 0 => remoteMainOf r
  | 1 => remoteJobOf r i
  | 2 => remoteRecvOf r i
  | 3 => callOf r i n
  | 4 => fun y => y = .net r i n .rpcOk
  | 5 => fun y => ∃ z, y = .net r i n (.runnerEnd z)
  | 6 => fun y => ∃ e, y = .net r i n (.netErr e)
  | _ => fun _ => False

/-- When a kind is due. -/
def rdue (E : RemoteEngine) (c r i n : Nat) : Prop := (∃ y, rkindOf c r i n y ∧ E.step y ≠ none) ∧ (c = 6 → BrokenCall E r i n)

/-- The kinds, numbered. -/
def remoteKind (k : Nat) : RemoteEngineAct → Prop :=
  rkindOf (Nat.unpair k).1 (Nat.unpair (Nat.unpair k).2).1 (Nat.unpair (Nat.unpair (Nat.unpair k).2).2).1
    (Nat.unpair (Nat.unpair (Nat.unpair k).2).2).2

def remoteDue (E : RemoteEngine) (k : Nat) : Prop :=
  rdue E (Nat.unpair k).1 (Nat.unpair (Nat.unpair k).2).1 (Nat.unpair (Nat.unpair (Nat.unpair k).2).2).1
    (Nat.unpair (Nat.unpair (Nat.unpair k).2).2).2

theorem remoteKind_no (c r i n : Nat) : remoteKind (kindNo c r i n) = rkindOf c r i n := by
  simp only [remoteKind, kindNo, Nat.unpair_pair]

theorem remoteDue_no (E : RemoteEngine) (c r i n : Nat) : remoteDue E (kindNo c r i n) = rdue E c r i n := by
  simp only [remoteDue, kindNo, Nat.unpair_pair]

/-- A kind with a move that is due has one that fails nothing. -/
theorem rkind_moves {acts : List RemoteEngineAct} {E : RemoteEngine} {c r i n : Nat} (h : RemoteFine acts E) (hd : rdue E c r i n) :
    ∃ y E', rkindOf c r i n y ∧ E.step y = some E' ∧ RemoteFine (acts ++ [y]) E' ∧ RemoteGoesOn E y := by
  obtain ⟨⟨y, hy, hs⟩, h6⟩ := hd
  obtain ⟨E', hE'⟩ := Option.ne_none_iff_exists'.1 hs
  have plain : (∀ x, y ≠ .sys x) → RemoteGoesOn E y → ∃ y E', rkindOf c r i n y ∧ E.step y = some E' ∧ RemoteFine (acts ++ [y]) E' ∧ RemoteGoesOn E y :=
    fun hx hg => ⟨y, E', hy, hE', h.snoc hE' (fun wf e => hx _ e) (fun r i b s e => absurd e (hx _)), hg⟩
  match c, hy, h6 with
  | 0, ⟨b', e⟩, _ =>
    subst e
    exact ⟨_, E', ⟨b', rfl⟩, hE', h.snoc hE' (by simp) (by simp), trivial⟩
  | 1, .inl ⟨z, e, hz⟩, _ =>
    subst e
    obtain ⟨b, rfl, hb⟩ := FairLem.workOf_iff.1 hz
    by_cases hn : ∃ b' s, b = .nextStep b' s
    · obtain ⟨b', s, rfl⟩ := hn
      simp only [RemoteEngine.step, SysAct.byRunner, Bool.false_eq_true, if_false, Option.map_eq_some_iff] at hE'
      obtain ⟨M, hM, -⟩ := hE'
      obtain ⟨ρ, t, x, hρ, hT, -, -, g, ρ1, hx, -⟩ := task_act hM
      obtain ⟨ρ', hρ', ht⟩ := taskAt_some hT
      rw [hρ] at hρ'
      cases hρ'
      let s' : Step := { s with id := ⟨t.job.id.workflow, t.job.id.job, s.id.number⟩ }
      have hp : E.step (.sys (.task r i (.nextStep b' s'))) ≠ none := by
        refine rsys_possible rfl ?_
        intro hbad
        simp only [Sys.step, hρ, ht, Option.bind_eq_bind, Option.bind_some, Sys.taskStep] at hbad hx
        cases hq : t.step E.sys.now (.nextStep b' s') with
        | some t2 => simp [hq] at hbad
        | none =>
          cases hq2 : t.step E.sys.now (.nextStep b' s) with
          | none => simp [hq2] at hx
          | some t2 =>
            simp only [SysTask.step] at hq hq2
            split at hq2 <;> simp_all
            split at hq <;> simp at hq
      obtain ⟨E1, hE1⟩ := Option.ne_none_iff_exists'.1 hp
      refine ⟨_, E1, .inl ⟨.task r i (.nextStep b' s'), rfl, FairLem.workOf_iff.2 ⟨_, rfl, trivial⟩⟩, hE1, h.snoc hE1 (by simp) ?_, trivial⟩
      intro r' i' b'' s1 e t' ht'
      cases e
      rw [hT] at ht'
      cases ht'
      rfl
    · refine ⟨_, E', .inl ⟨_, rfl, hz⟩, hE', h.snoc hE' (by simp) ?_, trivial⟩
      intro r' i' b' s e
      cases e
      exact absurd ⟨b', s, rfl⟩ hn
  | 1, .inr (.inl ⟨sv, e⟩), _ => subst e; exact plain (by simp) trivial
  | 1, .inr (.inr e), _ =>
    subst e
    obtain ⟨s, t0, ref, t, hT, hpc⟩ : ∃ s t0 ref t, taskAt E.sys r i = some t ∧ t.pc = .calling s t0 ref := by
      simp only [RemoteEngine.step] at hE'
      split at hE'
      · rename_i s t0 ref hq
        simp only [Option.map_eq_some_iff] at hq
        obtain ⟨t, h1, h2⟩ := hq
        rw [jobTask_eq] at h1
        exact ⟨s, t0, ref, t, h1, h2⟩
      · cases hE'
    obtain ⟨E1, hE1⟩ := Option.ne_none_iff_exists'.1 (dispatched_possible hT hpc)
    exact ⟨_, E1, .inr (.inl ⟨_, rfl⟩), hE1, h.snoc hE1 (by simp) (by simp), trivial⟩
  | 2, e, _ =>
    have e : y = _ := e
    subst e
    exact ⟨_, E', rfl, hE', h.snoc hE' (by simp) (by simp), trivial⟩
  | 3, ⟨b, e, hb⟩, _ =>
    subst e
    refine plain (by simp) ?_
    cases b <;> first | trivial | cases hb
  | 4, e, _ => have e : y = _ := e; subst e; exact plain (by simp) trivial
  | 5, ⟨z, e⟩, _ => subst e; exact plain (by simp) trivial
  | 6, ⟨z, e⟩, h6 =>
    subst e
    exact plain (by simp) (h6 rfl)
  | (_ + 7), e, _ => exact absurd e id

theorem remote_idles {acts : List RemoteEngineAct} {E : RemoteEngine} (h : RemoteFine acts E) :
    ∃ y E', E.step y = some E' ∧ RemoteFine (acts ++ [y]) E' ∧ RemoteGoesOn E y := by
  have hs : E.step (.sys (.tick 1)) ≠ none := rsys_possible rfl (by simp [Sys.step])
  obtain ⟨E', hE'⟩ := Option.ne_none_iff_exists'.1 hs
  exact ⟨_, E', hE', h.snoc hE' (by simp) (by simp), trivial⟩

/-! ## Calls -/

/-- What becomes of a call. -/
theorem call_follows {E E' : RemoteEngine} {a : RemoteEngineAct} (hs : E.step a = some E') {r i n : Nat} {x : RemoteExec}
    (hx : callAt E r i n = some x) :
    ∃ x', callAt E' r i n = some x' ∧ (x'.net = x.net ∨ (∃ b sg, x'.net = x.net.taskMoved b sg) ∨
      ∃ b, callMoves r i n [a] = [b] ∧ x.net.step b = some x'.net) := by
  obtain ⟨lab, h1, h2⟩ := (remote_move hs).2 r i
  have hv := callAt_view hx
  rw [h1]
  clear h1 hs
  have fin : ∀ (vs : List RCall), (E'.calls r i).map callView = vs → vs[n]? = some (some (x.command, x.net)) →
      ∃ x', callAt E' r i n = some x' ∧ (x'.net = x.net ∨ (∃ b sg, x'.net = x.net.taskMoved b sg) ∨
      ∃ b, labMoves n lab = [b] ∧ x.net.step b = some x'.net) := by
    intro vs e1 e2
    obtain ⟨x', k1, k2, k3⟩ := view_callAt (E := E') (r := r) (i := i) (n := n) (by rw [e1]; exact e2)
    exact ⟨x', k1, .inl k3⟩
  generalize hvs : (E.calls r i).map callView = vs at h2 hv
  generalize hvs' : (E'.calls r i).map callView = vs' at h2
  generalize taskAt E.sys r i = ot at h2
  generalize taskAt E'.sys r i = ot' at h2
  have own : ∀ (k : Nat) (b : RemoteAct) (c : Command) (m m' : RemoteRun), lab = some (k, b) → vs[k]? = some (some (c, m)) →
      m.step b = some m' → vs' = vs.set k (some (c, m')) → ∃ x', callAt E' r i n = some x' ∧
      (x'.net = x.net ∨ (∃ b sg, x'.net = x.net.taskMoved b sg) ∨ ∃ b, labMoves n lab = [b] ∧ x.net.step b = some x'.net) := by
    intro k b c m m' hl hget hst hset
    subst hl
    by_cases hk : k = n
    · subst hk
      rw [hv] at hget
      simp only [Option.some.injEq, Prod.mk.injEq] at hget
      obtain ⟨rfl, rfl⟩ := hget
      obtain ⟨x', k1, k2, k3⟩ := view_callAt (E := E') (r := r) (i := i) (n := k) (y := (x.command, m')) (by
        rw [hvs', hset]; simp [(List.getElem?_eq_some_iff.1 hv).1])
      simp only at k3
      exact ⟨x', k1, .inr (.inr ⟨b, by simp [labMoves], by rw [k3]; exact hst⟩)⟩
    · refine fin _ hvs' ?_
      rw [hset, List.getElem?_set_ne hk]; exact hv
  cases h2 with
  | same => exact fin _ hvs' hv
  | born => exact fin _ hvs' hv
  | eng g g' ρ ρ' now i0 r0 b t t' _ hb ht hst ht' =>
    split at hvs'
    · have e : ((E'.calls r i).map callView)[n]? = some (some (if vs.length - 1 = n then (x.command, x.net.taskMoved b t'.sig) else (x.command, x.net))) := by
        rw [hvs', List.getElem?_modify, hv]
        split <;> rfl
      obtain ⟨x', k1, k2, k3⟩ := view_callAt e
      refine ⟨x', k1, ?_⟩
      split at k3
      · exact .inr (.inl ⟨_, _, k3⟩)
      · exact .inl k3
    · exact fin _ hvs' hv
  | dispatched t _ st t0 ref hpc =>
    exact fin _ hvs' (by rw [List.getElem?_append_left (List.getElem?_eq_some_iff.1 hv).1]; exact hv)
  | refused t _ st t0 ref hpc =>
    exact fin _ hvs' (by rw [List.getElem?_append_left (List.getElem?_eq_some_iff.1 hv).1]; exact hv)
  | other o _ k b c m m' hget ha hst ho => exact own k b c m m' rfl hget hst rfl
  | wrote t _ k b c m m' hget ha hst hr hn => exact own k b c m m' rfl hget hst rfl

theorem taskMoved_srv {n : RemoteRun} (b : TaskAct) (sg : SigState) : (n.taskMoved b sg).srv = n.srv := by
  have h1 : ∀ n1, n1 = (if b = .recv then (n.step .engPoll).getD n else n) → n1.srv = n.srv := by
    rintro n1 rfl
    split
    · simp only [RemoteRun.step]
      (repeat' split) <;> rfl
    · rfl
  have a1 := h1 _ rfl
  simp only [RemoteRun.taskMoved]
  split <;> exact a1

/-- A request that has arrived, or never will. -/
theorem call_srv {m m' : RemoteRun} {b : RemoteAct} (h : m.step b = some m') (hi : m.srv ≠ .idle) : m'.srv ≠ .idle := by
  have hn : ∀ x, SrvPc.next x ≠ .idle := by intro x; cases x <;> simp [SrvPc.next]
  cases b <;> simp only [RemoteRun.step] at h <;> (repeat' split at h) <;> first
    | contradiction
    | (cases h; exact hi)
    | (cases h; simp; done)
    | (cases h; exact hn _)
    | (cases h; simp only; split <;> simp)

theorem srv_follows {f : Nat → RemoteEngine} {a : Nat → RemoteEngineAct} (hE : RemoteEndless f a) {r i n k : Nat} {x : RemoteExec}
    (hx : callAt (f k) r i n = some x) (d : Nat) :
    ∃ x', callAt (f (k + d)) r i n = some x' ∧ (x.net.srv ≠ .idle → x'.net.srv ≠ .idle) := by
  induction d with
  | zero => exact ⟨x, hx, id⟩
  | succ d ih =>
    obtain ⟨x1, h1, h2⟩ := ih
    obtain ⟨x2, h3, h4⟩ := call_follows (hE.moves (k + d)) h1
    refine ⟨x2, h3, fun hi => ?_⟩
    rcases h4 with h4 | ⟨b, sg, h4⟩ | ⟨b, -, h4⟩
    · rw [h4]; exact h2 hi
    · rw [h4, taskMoved_srv]; exact h2 hi
    · exact call_srv h4 (h2 hi)

theorem callMoves_self (r i n : Nat) (b : RemoteAct) : callMoves r i n [.net r i n b] = [b] := by simp [callMoves]

theorem runnerResult_some {l : List RemoteAct} {z : RunResult} (h : RemoteAct.runnerEnd z ∈ l) : runnerResult l ≠ none := by
  induction l with
  | nil => simp at h
  | cons b l ih =>
    cases b <;> simp only [runnerResult] <;> first | (simp; done) | (refine ih ?_; simpa using h)

/-- Runners on servers that get to end their streams do so. -/
theorem servers_end {f : Nat → RemoteEngine} {a : Nat → RemoteEngineAct} (hE : RemoteEndless f a) (r N : Nat)
    (hpush : ∀ k, N ≤ k → ∀ i n l, a k ≠ .net r i n (.runnerPush l))
    (h4 : ∀ i n, StronglyFair RemoteEngine.step f a fun y => y = .net r i n .rpcOk)
    (h5 : ∀ i n, StronglyFair RemoteEngine.step f a fun y => ∃ z, y = .net r i n (.runnerEnd z)) : ServersEnd f a r := by
  intro i n
  by_cases hex : ∃ k x, callAt (f k) r i n = some x
  · obtain ⟨k, x, hx⟩ := hex
    have later : ∀ m, k ≤ m → ∃ x', callAt (f m) r i n = some x' := by
      intro m hm
      obtain ⟨d, rfl⟩ := Nat.exists_eq_add_of_le hm
      obtain ⟨x', h1, -⟩ := srv_follows hE hx d
      exact ⟨x', h1⟩
    obtain ⟨m, y, hm, hy, hsrv⟩ : ∃ m y, k ≤ m ∧ callAt (f m) r i n = some y ∧ y.net.srv ≠ .idle := by
      refine Classical.byContradiction fun hno => ?_
      have hidle : ∀ m y, k ≤ m → callAt (f m) r i n = some y → y.net.srv = .idle := fun m y hm hy =>
        Classical.byContradiction fun hne => hno ⟨m, y, hm, hy, hne⟩
      have hposs : ∀ m y, k ≤ m → callAt (f m) r i n = some y → y.net.step .rpcOk = some { y.net with cli := .streaming, srv := .starting } := by
        intro m y hm hy
        have hi := hidle m y hm hy
        have hp := (rengineInv_reach (endless_remote hE m)).pairs r i
        have hv := callAt_view hy
        unfold ROk at hp
        split at hp
        · rw [hp.1] at hv; simp at hv
        · obtain ⟨na, h1, -⟩ := hp.reach n _ _ hv
          simp [RemoteRun.step, hi, ((remote_reach h1).idle hi).2.2]
      obtain ⟨m, hm, hy⟩ := h4 i n (fun m => ⟨max k m, Nat.le_max_right _ _, _, rfl, by
        obtain ⟨y, hy⟩ := later (max k m) (Nat.le_max_left _ _)
        exact net_possible hy rfl (by rw [hposs _ _ (Nat.le_max_left _ _) hy]; simp)⟩) k
      obtain ⟨y, hy'⟩ := later m hm
      have hmv := hE.moves m
      rw [hy] at hmv
      obtain ⟨y', g1, g2⟩ := call_follows hmv hy'
      have hnow := hidle (m + 1) y' (by omega) g1
      simp only [RemoteEngine.step, callAt_iff.1 hy', RemoteAct.byStack, Bool.false_eq_true, if_false, hposs m y hm hy', Option.map_some,
        Option.some.injEq] at hmv
      rw [← hmv] at g1
      have := callAt_iff.1 g1
      simp only [RemoteEngine.moved, updCalls, and_self, if_true] at this
      rw [List.getElem?_set_self (List.getElem?_eq_some_iff.1 (callAt_iff.1 hy')).1] at this
      simp only [Option.some.injEq] at this
      rw [← this] at hnow
      simp at hnow
    have keep : ∀ q, m ≤ q → ∃ x', callAt (f q) r i n = some x' ∧ x'.net.srv ≠ .idle := by
      intro q hq
      obtain ⟨d, rfl⟩ := Nat.exists_eq_add_of_le hq
      obtain ⟨x', h1, h2⟩ := srv_follows hE hy d
      exact ⟨x', h1, h2 hsrv⟩
    obtain ⟨q, hq, z, hz⟩ := h5 i n (fun q => ⟨max m q, Nat.le_max_right _ _, .net r i n (.runnerEnd .succeeded), ⟨_, rfl⟩, by
      obtain ⟨x', h1, h2⟩ := keep (max m q) (Nat.le_max_left _ _)
      exact net_possible h1 rfl (by simp [RemoteRun.step, h2])⟩) m
    refine ⟨N + q + 1, fun p hp => ⟨fun x' hx' => .inl ?_, hpush p (by omega) i n⟩⟩
    refine runnerResult_some (z := z) ?_
    obtain ⟨d, rfl⟩ := Nat.exists_eq_add_of_le (show q + 1 ≤ p by omega)
    have e : firstMoves a (q + 1 + d) = firstMoves a q ++ [a q] ++ ((List.range d).map fun j => a (q + 1 + j)) := by
      simp only [firstMoves]
      rw [List.range_add, List.map_append, List.range_succ, List.map_append, List.map_map]
      rfl
    rw [e, hz]
    simp [callMoves]
  · exact ⟨N, fun p hp => ⟨fun x hx => absurd ⟨p, x, hx⟩ hex, hpush p hp i n⟩⟩

/-- Broken connections that get to be noticed are. -/
theorem breaks_noticed {f : Nat → RemoteEngine} {a : Nat → RemoteEngineAct} (hE : RemoteEndless f a) (r : Nat)
    (h6 : ∀ i n, (Often fun k => rdue (f k) 6 r i n) → Often fun k => ∃ e, a k = .net r i n (.netErr e)) : BreaksNoticed f r := by
  rintro i n ⟨N, hN⟩
  obtain ⟨m, hm, e, he⟩ := h6 i n (fun k => ⟨max N k, Nat.le_max_right _ _, by
    obtain ⟨x, h1, h2, h3⟩ := hN (max N k) (Nat.le_max_left _ _)
    exact ⟨⟨_, ⟨"", rfl⟩, net_possible h1 rfl (by simp [RemoteRun.step, h3])⟩, fun _ => ⟨x, h1, h2, h3⟩⟩⟩) N
  obtain ⟨x, h1, h2, h3⟩ := hN m hm
  obtain ⟨y, g1, g2, g3⟩ := hN (m + 1) (by omega)
  have hmv := hE.moves m
  rw [he] at hmv
  simp only [RemoteEngine.step, callAt_iff.1 h1, RemoteAct.byStack, Bool.false_eq_true, if_false, RemoteRun.step, h3, if_true, Option.map_some,
    Option.some.injEq] at hmv
  rw [← hmv] at g1
  have := callAt_iff.1 g1
  simp only [RemoteEngine.moved, updCalls, and_self, if_true] at this
  rw [List.getElem?_set_self (List.getElem?_eq_some_iff.1 (callAt_iff.1 h1)).1] at this
  simp only [Option.some.injEq] at this
  rw [← this] at g3
  simp at g3

/-- **C118** Such executions exist, whatever has happened before: every schedule can be continued to an endless execution that treats
*all* runs fairly, in which all runners on servers end their streams and all broken connections are noticed, nobody starts or
cancels anything and nothing fails any more. -/
theorem C118_fair_futures (acts : List RemoteEngineAct) (E : RemoteEngine) (h : RemoteEngineReach acts E)
    (ha : Apart (remoteEngineMoves acts)) (hk : RemoteEngineHooksKeepJobs acts) :
    ∃ f a, RemoteEndless f a ∧ firstMoves a acts.length = acts ∧ f acts.length = E ∧
      (∀ n, Apart (remoteEngineMoves (firstMoves a n))) ∧ (∀ n, RemoteEngineHooksKeepJobs (firstMoves a n)) ∧
      (∀ n, acts.length ≤ n → RemoteGoesOn (f n) (a n)) ∧
      ∀ r, WeaklyFair RemoteEngine.step f a (remoteMainOf r) ∧ (∀ i, WeaklyFair RemoteEngine.step f a (remoteJobOf r i)) ∧
        (∀ i, StronglyFair RemoteEngine.step f a (remoteRecvOf r i)) ∧ (∀ i n, WeaklyFair RemoteEngine.step f a (callOf r i n)) ∧
        BreaksNoticed f r ∧ ServersEnd f a r := by
  obtain ⟨f, a, f0, hm, hfirst, hfE, hP, hfair⟩ := fair_future_en (step := RemoteEngine.step) (cls := remoteKind) (en := remoteDue)
    (Q := RemoteGoesOn) (P := RemoteFine) (fun _ _ _ h hc => rkind_moves h hc) (fun _ _ h => remote_idles h) (s00 := RemoteEngine.initial) h ⟨h, ha, hk⟩
  have hE : RemoteEndless f a := ⟨f0, hm⟩
  have hpre : ∀ n, Apart (remoteEngineMoves (firstMoves a n)) ∧ RemoteEngineHooksKeepJobs (firstMoves a n) := by
    intro n
    rcases Nat.le_total acts.length n with hn | hn
    · exact (hP n hn).1.2
    · have e : firstMoves a n ++ acts.drop n = acts := by
        have : firstMoves a n = acts.take n := by
          rw [← hfirst]
          simp only [firstMoves, ← List.map_take, List.take_range, Nat.min_eq_left hn]
        rw [this, List.take_append_drop]
      exact remoteFine_prefix (e.symm ▸ ha) (e.symm ▸ hk)
  refine ⟨f, a, hE, hfirst, hfE, fun n => (hpre n).1, fun n => (hpre n).2, fun n hn => (hP n hn).2, fun r => ?_⟩
  have key : ∀ c i n, (Often fun k => rdue (f k) c r i n) → Often fun k => rkindOf c r i n (a k) := by
    intro c i n ho
    have := hfair (kindNo c r i n)
    simp only [remoteDue_no, remoteKind_no] at this
    exact this ho
  have key' : ∀ c i n, c ≠ 6 → StronglyFair RemoteEngine.step f a (rkindOf c r i n) := by
    intro c i n hc ho
    exact key c i n fun k => (ho k).imp fun m hm => ⟨hm.1, hm.2, fun e => absurd e hc⟩
  exact ⟨weak_of_strong (key' 0 0 0 (by decide)), fun i => weak_of_strong (key' 1 i 0 (by decide)), fun i => key' 2 i 0 (by decide),
    fun i n => weak_of_strong (key' 3 i n (by decide)), breaks_noticed hE r fun i n => key 6 i n,
    servers_end hE r acts.length (fun k hk i n l e => by have := (hP k hk).2; rw [e] at this; exact this)
      (fun i n => key' 4 i n (by decide)) fun i n => key' 5 i n (by decide)⟩

theorem remote_returned_stays {f : Nat → RemoteEngine} {a : Nat → RemoteEngineAct} (hE : RemoteEndless f a)
    {r n : Nat} {ρ : SysRun} {res : WorkflowRunResult} (hr : (f n).sys.runs[r]? = some ρ) (hp : ρ.pc = .returned res) (d : Nat) :
    ∃ ρ', (f (n + d)).sys.runs[r]? = some ρ' ∧ ρ'.pc = .returned res := by
  induction d with
  | zero => exact ⟨ρ, hr, hp⟩
  | succ d ih =>
    obtain ⟨ρ1, h1, h2⟩ := ih
    obtain ⟨x0, x1, x2, s1, s2, ⟨k1, k2, k3⟩, -⟩ := remote_shadow (hE.moves (n + d))
    obtain ⟨ρ2, h3, h4⟩ := returned_stays k1 h1 h2
    obtain ⟨ρ3, h5, h6⟩ := returned_stays k2 h3 h4
    exact returned_stays k3 h5 h6

/-- **C118** Whatever has happened so far, all workflows that have been started can return together, without further workflows,
cancellations or failures (but for noticing the broken connections): no state of an engine on the remote runner is a dead end for any
set of well-formed runs. -/
theorem C118_all_runs_can_return (acts : List RemoteEngineAct) (E : RemoteEngine) (h : RemoteEngineReach acts E)
    (ha : Apart (remoteEngineMoves acts)) (hk : RemoteEngineHooksKeepJobs acts) :
    ∃ more E', RemoteEngineReach (acts ++ more) E' ∧ Apart (remoteEngineMoves (acts ++ more)) ∧ RemoteEngineHooksKeepJobs (acts ++ more) ∧
      (∀ pre y post, more = pre ++ y :: post → ∃ E1, RemoteEngineReach (acts ++ pre) E1 ∧ RemoteGoesOn E1 y) ∧
      ∀ (r : Nat) (ρ : SysRun), E.sys.runs[r]? = some ρ → UniqueJobs ρ.wf → OwnIds ρ.wf → DepsDefined ρ.wf → Acyclic ρ.wf → ρ.wf.jobs ≠ [] →
        ∃ ρ' res, E'.sys.runs[r]? = some ρ' ∧ ρ'.pc = .returned res := by
  obtain ⟨f, a, hE, hfirst, hfE, hA, hK, hgo, hfair⟩ := C118_fair_futures acts E h ha hk
  have main : ∀ m, ∃ N, acts.length ≤ N ∧ ∀ r : Nat, r < m → ∀ ρ : SysRun, E.sys.runs[r]? = some ρ → UniqueJobs ρ.wf → OwnIds ρ.wf →
      DepsDefined ρ.wf → Acyclic ρ.wf → ρ.wf.jobs ≠ [] →
      ∃ (ρ' : SysRun) (res : WorkflowRunResult), (f N).sys.runs[r]? = some ρ' ∧ ρ'.pc = .returned res := by
    intro m
    induction m with
    | zero => exact ⟨acts.length, Nat.le_refl _, fun r hr => absurd hr (Nat.not_lt_zero r)⟩
    | succ m ih =>
      obtain ⟨N, hN, hall⟩ := ih
      by_cases hex : ∃ ρ : SysRun, E.sys.runs[m]? = some ρ ∧ UniqueJobs ρ.wf ∧ OwnIds ρ.wf ∧ DepsDefined ρ.wf ∧ Acyclic ρ.wf ∧ ρ.wf.jobs ≠ []
      · obtain ⟨ρ, hr, h1, h2, h3, h4, h5⟩ := hex
        obtain ⟨f1, f2, f3, f4, f5, f6⟩ := hfair m
        obtain ⟨n, ρ', res, hn, hr', hp⟩ := C118_servers_end_runs_return f a hE hA hK m acts.length ρ (by rw [hfE]; exact hr)
          h1 h2 h3 h4 h5 f1 f2 f3 f4 f5 f6
        refine ⟨N + n, by omega, fun r hlt ρ1 g0 g1 g2 g3 g4 g5 => ?_⟩
        rcases Nat.lt_succ_iff_lt_or_eq.1 hlt with hlt | rfl
        · obtain ⟨ρ2, res2, e1, e2⟩ := hall r hlt ρ1 g0 g1 g2 g3 g4 g5
          obtain ⟨ρ3, e3, e4⟩ := remote_returned_stays hE e1 e2 n
          exact ⟨ρ3, res2, e3, e4⟩
        · obtain ⟨ρ3, e3, e4⟩ := remote_returned_stays hE hr' hp N
          rw [Nat.add_comm] at e3
          exact ⟨ρ3, res, e3, e4⟩
      · refine ⟨N, hN, fun r hlt ρ1 g0 g1 g2 g3 g4 g5 => ?_⟩
        rcases Nat.lt_succ_iff_lt_or_eq.1 hlt with hlt | rfl
        · exact hall r hlt ρ1 g0 g1 g2 g3 g4 g5
        · exact absurd ⟨ρ1, g0, g1, g2, g3, g4, g5⟩ hex
  obtain ⟨N, hN, hall⟩ := main E.sys.runs.length
  have e : acts ++ (firstMoves a N).drop acts.length = firstMoves a N := by
    have : acts = (firstMoves a N).take acts.length := by
      conv => lhs; rw [← hfirst]
      simp only [firstMoves, ← List.map_take, List.take_range, Nat.min_eq_left hN]
    conv => lhs; lhs; rw [this]
    exact List.take_append_drop _ _
  have hdrop : ∀ pre y post, (firstMoves a N).drop acts.length = pre ++ y :: post →
      ∃ E1, RemoteEngineReach (acts ++ pre) E1 ∧ RemoteGoesOn E1 y := by
    intro pre y post he
    have hl : firstMoves a N = (acts ++ pre) ++ y :: post := by rw [← e, he, List.append_assoc]
    have hlen : (acts ++ pre).length < N := by
      have : (firstMoves a N).length = N := by simp [firstMoves]
      rw [hl] at this
      simp only [List.length_append, List.length_cons] at this ⊢
      omega
    have h1 : firstMoves a (acts ++ pre).length = acts ++ pre := by
      have : firstMoves a (acts ++ pre).length = (firstMoves a N).take (acts ++ pre).length := by
        simp only [firstMoves, ← List.map_take, List.take_range, Nat.min_eq_left (Nat.le_of_lt hlen)]
      rw [this, hl, List.take_left]
    have h2 : a (acts ++ pre).length = y := by
      have h3 : (firstMoves a N)[(acts ++ pre).length]? = some y := by rw [hl, List.getElem?_append_right (Nat.le_refl _), Nat.sub_self]; rfl
      have h4 : (firstMoves a N)[(acts ++ pre).length]? = some (a (acts ++ pre).length) := by
        simp only [firstMoves]; rw [List.getElem?_map, List.getElem?_range hlen]; rfl
      rw [h4] at h3
      exact Option.some.inj h3
    refine ⟨f (acts ++ pre).length, ?_, ?_⟩
    · have := endless_remote hE (acts ++ pre).length
      rwa [h1] at this
    · have := hgo (acts ++ pre).length (by simp)
      rwa [h2] at this
  refine ⟨(firstMoves a N).drop acts.length, f N, ?_⟩
  rw [e]
  exact ⟨endless_remote hE N, hA N, hK N, hdrop, fun r ρ hr => hall r (List.getElem?_eq_some_iff.1 hr).1 ρ hr⟩

set_option maxRecDepth 8000 in
/-- The hypotheses are met: in the middle of two workflows, one of whose calls is still out. -/
example : ∃ E, RemoteEngineReach RemoteEngineEx.two E ∧ Apart (remoteEngineMoves RemoteEngineEx.two) ∧
    RemoteEngineHooksKeepJobs RemoteEngineEx.two ∧ ∃ ρ, E.sys.runs[1]? = some ρ ∧ (∀ res, ρ.pc ≠ .returned res) := by
  refine ⟨RemoteEngineEx.after RemoteEngineEx.two, rfl, RemoteEngineEx.apart_two, RemoteEngineEx.keeps_two, _, rfl, ?_⟩
  intro res hbad
  cases hbad

end AstroRun
