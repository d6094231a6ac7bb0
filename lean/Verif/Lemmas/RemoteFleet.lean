import Verif.Spec.RemoteFleet
import Verif.Lemmas.RemoteStackSignals
import Verif.Lemmas.Scheduler
import Verif.Props.Remote

/-! # Lemmas: a job on a fleet of servers -/

namespace AstroRun
open Spec

/-! ## The stack -/

/-- Who executes what. -/
def placed (s : RemoteStack) : List (Id × Command) := s.execs.map fun x => (x.server, x.command)

theorem placed_mem {s : RemoteStack} {x : RemoteExec} (h : x ∈ s.execs) : (x.server, x.command) ∈ placed s :=
  List.mem_map.2 ⟨x, h, rfl⟩

theorem placed_moved {s : RemoteStack} {i : Nat} {x : RemoteExec} {n : RemoteRun} (hx : s.execs[i]? = some x) :
    placed (s.moved i x n) = placed s := by
  unfold placed RemoteStack.moved
  apply List.ext_getElem?
  intro j
  simp only [List.getElem?_map, List.getElem?_set]
  by_cases hij : i = j
  · subst hij
    obtain ⟨hl, he⟩ := List.getElem?_eq_some_iff.1 hx
    simp [hl, he]
  · simp [hij]

theorem placed_signalArrives (s : RemoteStack) (sv : Id) (st : StepId) (v : Signal) :
    placed (s.signalArrives sv st v) = placed s := by
  unfold placed RemoteStack.signalArrives
  split
  · exact modify_map_same fun _ => rfl
  · rfl

theorem eng_stays_calling {m m' : JobM} {a : JobAct} (ha : a.byRunner = false) (hs : m.step a = some m') {st : Step} {t0 : Time}
    (h : m.pc = .calling st t0) : m'.pc = .calling st t0 := by
  cases a <;> simp only [JobAct.byRunner, reduceCtorEq] at ha <;> simp only [JobM.step, h] at hs
  all_goals
    repeat' (split at hs)
    all_goals simp only [Option.some.injEq, reduceCtorEq] at hs
    all_goals (subst hs; first | exact h | rfl)

/-- What a move that is not the client's does not change. -/
theorem stk_frame {s s' : RemoteStack} {a : RemoteStackAct} (ha : a.byClient = false) (hs : s.step a = some s') :
    placed s' = placed s ∧ s'.current = s.current ∧
    (∀ st t0, s.eng.pc = .calling st t0 → s'.eng.pc = .calling st t0) ∧
    (s'.eng.pc.reading = true → s.eng.pc.reading = true ∧ runningStep s'.eng.pc = runningStep s.eng.pc) := by
  have mov : ∀ {i x n}, s.execs[i]? = some x → placed (s.moved i x n) = placed s ∧ (s.moved i x n).current = s.current ∧
      (∀ st t0, s.eng.pc = .calling st t0 → (s.moved i x n).eng.pc = .calling st t0) ∧
      ((s.moved i x n).eng.pc.reading = true → s.eng.pc.reading = true ∧ runningStep (s.moved i x n).eng.pc = runningStep s.eng.pc) := by
    intro i x n hx
    have := (moved_eng s i x n).2.2
    exact ⟨placed_moved hx, rfl, fun st t0 h => by rw [this, h], fun h => by rw [this] at h ⊢; exact ⟨h, rfl⟩⟩
  have arr : ∀ {r : RemoteStack} (sv id v), (r.signalArrives sv id v).eng = r.eng ∧ (r.signalArrives sv id v).current = r.current ∧
      placed (r.signalArrives sv id v) = placed r := fun sv id v =>
    ⟨(signalArrives_same _ sv id v).1, (signalArrives_same _ sv id v).2.1, placed_signalArrives _ sv id v⟩
  cases a with
  | eng b =>
    simp only [RemoteStack.step] at hs
    split at hs
    · cases hs
    · rename_i hb
      have hb' : b.byRunner = false := by simpa using hb
      simp only [Option.map_eq_some_iff] at hs
      obtain ⟨m, hm, rfl⟩ := hs
      refine ⟨?_, rfl, fun st t0 h => eng_stays_calling hb' hm h, fun h => ?_⟩
      · simp only [placed, RemoteStack.engineMoved]
        split
        · split
          · exact modify_map_same fun _ => rfl
          · rfl
        · rfl
      · obtain ⟨h1, _, _, _, h5⟩ := eng_reading hb' hm h
        exact ⟨h1, h5⟩
  | dispatched sv => simp [RemoteStackAct.byClient] at ha
  | noRunner => simp [RemoteStackAct.byClient] at ha
  | net i b =>
    obtain ⟨x, n, hget, _, _, hcase⟩ := rnet_step hs
    rcases hcase with ⟨_, rfl⟩ | ⟨v, _, _, rfl⟩ | ⟨_, _, _, rfl⟩
    · exact mov hget
    · obtain ⟨g1, g2, g3⟩ := arr (r := s.moved i x n) x.server x.command.id v
      rw [g1, g2, g3]; exact mov hget
    · exact mov hget
  | signalFailed i b =>
    obtain ⟨x, n, v, hget, _, _, hcase⟩ := rfail_step hs
    subst hcase
    split
    · obtain ⟨g1, g2, g3⟩ := arr (r := s.moved i x n) x.server x.command.id v
      rw [g1, g2, g3]; exact mov hget
    · exact mov hget
  | stepCompleted sv r =>
    simp only [RemoteStack.step] at hs
    split at hs <;> cases hs
    exact ⟨rfl, rfl, fun _ _ h => h, fun h => ⟨h, rfl⟩⟩

theorem calling_job {job : Job} {t : Time} {ja : List JobAct} {m : JobM} (h : JobReach job t ja m) {st : Step} {t0 : Time}
    (hc : m.pc = .calling st t0) : st.id.jobId = job.id := by
  have := runs_induct (P := fun _ m => m.job = job ∧ ∀ st t0, m.pc = .calling st t0 → st.id.jobId = job.id) ?_ ?_ h
  · exact this.2 st t0 hc
  · exact ⟨rfl, by simp [JobM.initial]⟩
  · rintro acts a m m' _ ⟨hj, ih⟩ hs
    cases a <;> simp only [JobM.step] at hs
    all_goals
      repeat' (split at hs)
      all_goals simp only [Option.some.injEq, reduceCtorEq] at hs
      all_goals subst hs
      all_goals refine ⟨hj, fun st' t0' hc' => ?_⟩
      all_goals first
        | exact ih st' t0' hc'
        | (simp [JobM.stepDone, JobM.emit] at hc'; done)
        | (simp [JobM.emit] at hc' ih; simp_all; done)
        | skip

/-! ## The table of servers -/

theorem reached_snoc (acts : List FleetAct) (a : FleetAct) : reached (acts ++ [a]) = reached acts ++ reached [a] := by
  simp [reached]

theorem knownAs_mono {version : String} {pre post : List FleetAct} {id : Id} {md : RunnerMeta} (h : KnownAs version pre id md) :
    KnownAs version (pre ++ post) id md := by
  unfold KnownAs at *
  have : reached (pre ++ post) = reached pre ++ reached post := by simp [reached]
  rw [this, List.find?_append, h]; rfl

/-- One more answer. -/
theorem connect_get {v : String} {cs : AMap Id RunnerMeta} {ms : List RunnerMeta}
    (h : ∀ id, cs.get? id = ms.find? (fun md => decide (md.id = id ∧ md.version = v))) (a : Except Error RunnerMeta) (id : Id) :
    (connectAll v cs [a]).get? id = (ms ++ reached [.connect a]).find? (fun md => decide (md.id = id ∧ md.version = v)) := by
  cases a with
  | error e => simp [connectAll, connect, reached, h]
  | ok md =>
    simp only [connectAll, connect]
    by_cases hv : md.version = v
    · simp only [hv, ne_eq, not_true_eq_false, if_false]
      split
      · rename_i hc
        rw [AMap.contains, Option.isSome_iff_exists] at hc
        obtain ⟨w, hw⟩ := hc
        simp only [connectAll, reached, List.filterMap_cons, List.filterMap_nil, List.find?_append, List.find?_cons, List.find?_nil, hv,
          and_true]
        rw [h] at hw ⊢
        by_cases hid : md.id = id
        · subst hid; simp only [hv, and_true] at hw ⊢; rw [hw]; rfl
        · simp [hid]
      · rename_i hc
        rw [AMap.contains, Bool.not_eq_true, Option.isSome_eq_false_iff, Option.isNone_iff_eq_none] at hc
        simp only [reached, List.filterMap_cons, List.filterMap_nil, List.find?_append, List.find?_cons, List.find?_nil, hv, and_true,
          AMap.get?_insert, h]
        by_cases hid : md.id = id
        · subst hid
          rw [h] at hc
          rw [hc]; simp
        · simp [hid]
    · simp [hv, connectAll, reached, h]

/-! ## The calls -/

theorem sched_calls {m m' : SchedM} {a : SchedAct} (hs : m.step a = some m') :
    ∀ (k : Nat) (call : SchedCall), m'.calls[k]? = some call →
      (∃ c0, m.calls[k]? = some c0 ∧ c0.runners = call.runners ∧ c0.cmd = call.cmd) ∨
      (k = m.calls.length ∧ a = .call call.runners call.cmd ∧ call.pc = .asked) := by
  intro k call hk
  have set : ∀ i pc, (m.setCall i pc).calls[k]? = some call →
      ∃ c0, m.calls[k]? = some c0 ∧ c0.runners = call.runners ∧ c0.cmd = call.cmd := by
    intro i pc h
    rw [getElem?_setCall] at h
    split at h
    · cases hc : m.calls[k]? with
      | none => simp [hc] at h
      | some c0 => simp [hc] at h; subst h; exact ⟨c0, rfl, rfl, rfl⟩
    · exact ⟨call, h, rfl, rfl⟩
  cases a with
  | call rs c =>
    simp only [SchedM.step, Option.some.injEq] at hs
    subst hs
    rcases getElem?_append_cases hk with h1 | ⟨h1, h2⟩
    · exact .inl ⟨call, h1, rfl, rfl⟩
    · have h3 := (List.getElem?_eq_some_iff.1 h2).1
      simp only [List.length_singleton] at h3
      have h4 : k - m.calls.length = 0 := by omega
      rw [h4] at h2
      simp at h2
      subst h2
      exact .inr ⟨by omega, rfl, rfl⟩
  | lookup i =>
    simp only [SchedM.step] at hs
    (repeat' split at hs) <;> cases hs <;> exact .inl (set _ _ hk)
  | pick i =>
    simp only [SchedM.step] at hs
    (repeat' split at hs) <;> cases hs <;> exact .inl (set _ _ hk)
  | commit i =>
    simp only [SchedM.step] at hs
    (repeat' split at hs) <;> cases hs <;> exact .inl (set _ _ hk)
  | stepDone id => simp only [SchedM.step, Option.some.injEq] at hs; subst hs; exact .inl ⟨call, hk, rfl, rfl⟩
  | jobDone id => simp only [SchedM.step, Option.some.injEq] at hs; subst hs; exact .inl ⟨call, hk, rfl, rfl⟩

/-- Calls are not forgotten, their arguments stay, and a result stays. -/
theorem sched_keeps {m m' : SchedM} {a : SchedAct} (hs : m.step a = some m') {k : Nat} {call : SchedCall}
    (hk : m.calls[k]? = some call) :
    ∃ c1, m'.calls[k]? = some c1 ∧ c1.runners = call.runners ∧ c1.cmd = call.cmd ∧
      (∀ r, call.pc = .done r → c1.pc = .done r) ∧ ((∀ i, a = .lookup i ∨ a = .pick i ∨ a = .commit i → i ≠ k) → c1 = call) := by
  have set : ∀ i pc, (a = .lookup i ∨ a = .pick i ∨ a = .commit i) → (∀ c, m.calls[i]? = some c → ∀ r, c.pc ≠ .done r) →
      ∃ c1, (m.setCall i pc).calls[k]? = some c1 ∧ c1.runners = call.runners ∧ c1.cmd = call.cmd ∧
      (∀ r, call.pc = .done r → c1.pc = .done r) ∧ ((∀ i, a = .lookup i ∨ a = .pick i ∨ a = .commit i → i ≠ k) → c1 = call) := by
    intro i pc ha hn
    rw [getElem?_setCall]
    by_cases hik : i = k
    · subst hik
      rw [if_pos rfl, hk]
      exact ⟨_, rfl, rfl, rfl, fun r hr => absurd hr (hn _ hk r), fun h => absurd rfl (h i ha)⟩
    · rw [if_neg hik]
      exact ⟨call, hk, rfl, rfl, fun _ h => h, fun _ => rfl⟩
  cases a with
  | call rs c =>
    simp only [SchedM.step, Option.some.injEq] at hs
    subst hs
    refine ⟨call, ?_, rfl, rfl, fun _ h => h, fun _ => rfl⟩
    rw [List.getElem?_append_left (List.getElem?_eq_some_iff.1 hk).1]
    exact hk
  | lookup i =>
    simp only [SchedM.step] at hs
    split at hs
    · rename_i hi
      (repeat' split at hs) <;> cases hs <;> exact set _ _ (by simp) (by intro c hc r; rw [hi] at hc; cases hc; simp)
    · cases hs
  | pick i =>
    simp only [SchedM.step] at hs
    (repeat' split at hs) <;> cases hs <;> rename_i hi <;>
      exact set _ _ (by simp) (by intro c hc r; rw [hi] at hc; cases hc; simp)
  | commit i =>
    simp only [SchedM.step] at hs
    (repeat' split at hs) <;> cases hs <;> rename_i hi <;>
      exact set _ _ (by simp) (by intro c hc r; rw [hi] at hc; cases hc; simp)
  | stepDone id =>
    simp only [SchedM.step, Option.some.injEq] at hs; subst hs; exact ⟨call, hk, rfl, rfl, fun _ h => h, fun _ => rfl⟩
  | jobDone id =>
    simp only [SchedM.step, Option.some.injEq] at hs; subst hs; exact ⟨call, hk, rfl, rfl, fun _ h => h, fun _ => rfl⟩

/-! ## The client's answer -/

theorem noRunner_step {s : RemoteStack} {st : Step} {t0 : Time} (hc : s.eng.pc = .calling st t0) :
    ∃ s', s.step .noRunner = some s' ∧ s'.eng.pc = .handling st t0 ∧ placed s' = placed s ∧ s'.current = none := by
  cases hs : s.step .noRunner with
  | none => simp [RemoteStack.step, hc, JobM.absorbAll, List.foldl, JobM.step] at hs
  | some s' =>
    simp only [RemoteStack.step, hc, JobM.absorbAll, List.foldl, JobM.step, Option.getD_some, Option.map_some, Option.some.injEq] at hs
    subst hs
    exact ⟨_, rfl, rfl, rfl, rfl⟩

theorem dispatched_step {s : RemoteStack} {st : Step} {t0 : Time} (hc : s.eng.pc = .calling st t0) (sv : Id) :
    ∃ s', s.step (.dispatched sv) = some s' ∧ s'.eng.pc = .handling st t0 ∧ placed s' = placed s ++ [(sv, st.toCommand)] ∧
      s'.current = some s.execs.length := by
  cases hs : s.step (.dispatched sv) with
  | none => simp [RemoteStack.step, hc, JobM.step] at hs
  | some s' =>
    simp only [RemoteStack.step, hc, JobM.step, Option.map_some, Option.some.injEq] at hs
    subst hs
    exact ⟨_, rfl, rfl, by simp [placed], rfl⟩

/-! ## The invariant -/

/-- A step refused for lack of servers: none known when the job asked can execute it. -/
def NoneFits (version : String) (acts : List FleetAct) (st : Step) : Prop :=
  ∃ pre, AskedAfter acts pre ∧ ∀ id md, KnownAs version pre id md → ¬ CanRun md st.toCommand

/-- What the copy of `clients`, made at the last `ask`, contains. -/
def CopyAt (version : String) (acts : List FleetAct) (snap : AMap Id RunnerMeta) : Prop :=
  ∃ pre, AskedAfter acts pre ∧ ∀ id md, snap.get? id = some md ↔ KnownAs version pre id md

structure FleetInv (version : String) (job : Job) (t : Time) (acts : List FleetAct) (f : RemoteFleet) : Prop where
  ver : f.version = version
  net : ∃ sa, RemoteStackReach job t sa f.net
  sched : ∃ ca, SchedReach ca f.sched
  good : GoodClients f.clients
  known : ∀ id, f.clients.get? id = (reached acts).find? (fun md => decide (md.id = id ∧ md.version = version))
  offers : ∀ (k : Nat) (call : SchedCall), f.sched.calls[k]? = some call → ∀ r ∈ call.runners, (r.id, r) ∈ f.clients
  asked : ∀ k snap, f.asked = some (k, snap) → GoodClients snap ∧ CopyAt version acts snap ∧
    ∃ st t0 rs pc, f.net.eng.pc = .calling st t0 ∧ f.sched.calls[k]? = some ⟨rs, st.toCommand, pc⟩ ∧ rs.Perm (snap.map Prod.snd)
  fine : f.panicked = false
  placed : ∀ sv c, (sv, c) ∈ placed f.net → c.id.jobId = job.id ∧
    ∃ (k : Nat) (rs : List RunnerMeta) (r : RunnerMeta), f.sched.calls[k]? = some ⟨rs, c, .done (some r)⟩ ∧ r.id = sv
  refused : f.net.eng.pc.reading = true → f.net.current = none →
    ∃ st, runningStep f.net.eng.pc = some st ∧ NoneFits version acts st

theorem askedAfter_snoc {acts pre : List FleetAct} {a : FleetAct} (h : AskedAfter acts pre) (ha : ∀ rs, a ≠ .ask rs) :
    AskedAfter (acts ++ [a]) pre := by
  obtain ⟨rs, post, rfl, hn⟩ := h
  refine ⟨rs, post ++ [a], by simp, fun rs' hm => ?_⟩
  simp only [List.mem_append, List.mem_singleton] at hm
  rcases hm with hm | hm
  · exact hn rs' hm
  · exact ha rs' hm.symm

theorem client_mem {v : String} {cs : AMap Id RunnerMeta} (a : Except Error RunnerMeta) {e : Id × RunnerMeta} (h : e ∈ cs) :
    e ∈ connectAll v cs [a] := by
  simp only [connectAll]
  split
  · split
    · exact h
    · rename_i id md _ hc
      refine AMap.mem_insert.2 (.inr ⟨h, fun he => hc ?_⟩)
      rw [AMap.contains_iff]
      exact List.mem_map.2 ⟨e, h, he⟩
  · exact h

theorem offered_known {cs : AMap Id RunnerMeta} (hg : GoodClients cs) {r : RunnerMeta} (h : r ∈ cs.map Prod.snd) : (r.id, r) ∈ cs := by
  obtain ⟨⟨id, md⟩, hm, rfl⟩ := List.mem_map.1 h
  have := hg.2 _ _ hm
  simp only at this ⊢
  rw [this]; exact hm

theorem fleetInv_step {version : String} {job : Job} {t : Time} {acts : List FleetAct} {f f' : RemoteFleet} {a : FleetAct}
    (h : FleetInv version job t acts f) (hs : f.step a = some f') : FleetInv version job t (acts ++ [a]) f' := by
  obtain ⟨sa, hsa⟩ := h.net
  obtain ⟨ca, hca⟩ := h.sched
  have hnet : ∀ b n, f.net.step b = some n → ∃ sa, RemoteStackReach job t sa n :=
    fun b n hn => ⟨sa ++ [b], runs_snoc.2 ⟨f.net, hsa, hn⟩⟩
  have hsch : ∀ b m, f.sched.step b = some m → ∃ ca, SchedReach ca m :=
    fun b m hm => ⟨ca ++ [b], runs_snoc.2 ⟨f.sched, hca, hm⟩⟩
  have hkeep : reached [a] = [] → ∀ id, f.clients.get? id =
      (reached (acts ++ [a])).find? (fun md => decide (md.id = id ∧ md.version = version)) := by
    intro hr id; rw [reached_snoc, hr, List.append_nil]; exact h.known id
  have copy : (∀ rs, a ≠ .ask rs) → ∀ snap, CopyAt version acts snap → CopyAt version (acts ++ [a]) snap :=
    fun ha snap ⟨pre, h1, h2⟩ => ⟨pre, askedAfter_snoc h1 ha, h2⟩
  have fits : (∀ rs, a ≠ .ask rs) → ∀ st, NoneFits version acts st → NoneFits version (acts ++ [a]) st :=
    fun ha snap ⟨pre, h1, h2⟩ => ⟨pre, askedAfter_snoc h1 ha, h2⟩
  -- a move of the scheduler
  have sched : ∀ b m, f.sched.step b = some m → (∀ rs c, b = .call rs c → rs.Perm (f.clients.map Prod.snd)) →
      (∀ (k : Nat) (call : SchedCall), m.calls[k]? = some call → ∀ r ∈ call.runners, (r.id, r) ∈ f.clients) ∧
      (∀ sv c, (sv, c) ∈ AstroRun.placed f.net → c.id.jobId = job.id ∧
        ∃ (k : Nat) (rs : List RunnerMeta) (r : RunnerMeta), m.calls[k]? = some ⟨rs, c, .done (some r)⟩ ∧ r.id = sv) := by
    intro b m hm hp
    refine ⟨fun k call hk r hr => ?_, fun sv c hc => ?_⟩
    · rcases sched_calls hm k call hk with ⟨c0, h1, h2, _⟩ | ⟨_, h1, _⟩
      · exact h.offers k c0 h1 r (by rw [h2]; exact hr)
      · exact offered_known h.good ((hp _ _ h1).mem_iff.1 hr)
    · obtain ⟨h0, k, rs, r, h1, h2⟩ := h.placed sv c hc
      obtain ⟨⟨rs1, c1, pc1⟩, g1, g2, g3, g4, _⟩ := sched_keeps hm h1
      simp only at g2 g3 g4
      exact ⟨h0, k, rs, r, by rw [g1, g2, g3, g4 _ rfl], h2⟩
  cases a with
  | stk b =>
    simp only [RemoteFleet.step] at hs
    split at hs
    · cases hs
    · rename_i hb
      simp only [Option.map_eq_some_iff] at hs
      obtain ⟨n, hn, rfl⟩ := hs
      obtain ⟨g1, g2, g3, g4⟩ := stk_frame (by simpa using hb) hn
      refine ⟨h.ver, hnet b n hn, h.sched, h.good, hkeep rfl, h.offers, ?_, h.fine, ?_, ?_⟩
      · intro k snap ha
        obtain ⟨k1, k2, st, t0, rs, pc, k3, k4⟩ := h.asked k snap ha
        exact ⟨k1, copy (by simp) _ k2, st, t0, rs, pc, g3 _ _ k3, k4⟩
      · intro sv c hc
        simp only at hc
        rw [g1] at hc; exact h.placed sv c hc
      · intro hr hc
        simp only at hr hc ⊢
        obtain ⟨k1, k2⟩ := g4 hr
        rw [g2] at hc
        obtain ⟨st, e1, e2⟩ := h.refused k1 hc
        exact ⟨st, by rw [k2]; exact e1, fits (by simp) _ e2⟩
  | connect ans =>
    simp only [RemoteFleet.step, Option.some.injEq] at hs
    subst hs
    refine ⟨h.ver, h.net, h.sched, connectAll_good h.good _, ?_, ?_, ?_, h.fine, h.placed, ?_⟩
    · intro id
      rw [reached_snoc, h.ver]
      exact connect_get h.known ans id
    · intro k call hk r hr
      exact client_mem ans (h.offers k call hk r hr)
    · intro k snap ha
      obtain ⟨k1, k2, k3⟩ := h.asked k snap ha
      exact ⟨k1, copy (by simp) _ k2, k3⟩
    · intro hr hc
      obtain ⟨st, e1, e2⟩ := h.refused hr hc
      exact ⟨st, e1, fits (by simp) _ e2⟩
  | ask rs =>
    simp only [RemoteFleet.step] at hs
    split at hs
    · rename_i st t0 hpc hask
      split at hs
      · rename_i hp
        simp only [Bool.and_eq_true, List.isPerm_iff] at hp
        simp only [Option.map_eq_some_iff] at hs
        obtain ⟨m, hm, rfl⟩ := hs
        obtain ⟨k1, k2⟩ := sched _ m hm (fun rs' c he => by cases he; exact hp.1)
        refine ⟨h.ver, h.net, hsch _ m hm, h.good, hkeep rfl, k1, ?_, h.fine, k2, ?_⟩
        · intro k snap ha
          simp only [Option.some.injEq, Prod.mk.injEq] at ha
          obtain ⟨rfl, rfl⟩ := ha
          refine ⟨h.good, ⟨acts, ⟨rs, [], rfl, by simp⟩, fun id md => by rw [h.known]; rfl⟩, st, t0, rs, .asked, hpc, ?_, hp.1⟩
          simp only [SchedM.step, Option.some.injEq] at hm
          subst hm
          simp
        · intro hr
          simp only [hpc, JobPc.reading, Bool.false_eq_true] at hr
      · cases hs
    · cases hs
  | sched b =>
    have key : ∀ m, f.sched.step b = some m → (∀ rs c, b = .call rs c → rs.Perm (f.clients.map Prod.snd)) →
        FleetInv version job t (acts ++ [.sched b]) { f with sched := m } := by
      intro m hm hp
      obtain ⟨k1, k2⟩ := sched b m hm hp
      refine ⟨h.ver, h.net, hsch b m hm, h.good, hkeep rfl, k1, ?_, h.fine, k2, ?_⟩
      · intro k snap ha
        obtain ⟨k1, k2, st, t0, rs, pc, k3, k4, k5⟩ := h.asked k snap ha
        obtain ⟨⟨rs1, c1, pc1⟩, g1, g2, g3, _⟩ := sched_keeps hm k4
        simp only at g2 g3
        subst g2 g3
        exact ⟨k1, copy (by simp) _ k2, st, t0, _, pc1, k3, g1, k5⟩
      · intro hr hc
        obtain ⟨st, e1, e2⟩ := h.refused hr hc
        exact ⟨st, e1, fits (by simp) _ e2⟩
    simp only [RemoteFleet.step] at hs
    split at hs
    · split at hs
      · rename_i hp
        simp only [Option.map_eq_some_iff] at hs
        obtain ⟨m, hm, rfl⟩ := hs
        exact key m hm (fun rs' c he => by cases he; exact List.isPerm_iff.1 hp)
      · cases hs
    · cases hs
    · cases hs
    · simp only [Option.map_eq_some_iff] at hs
      obtain ⟨m, hm, rfl⟩ := hs
      exact key m hm (by simp)
    · simp only [Option.map_eq_some_iff] at hs
      obtain ⟨m, hm, rfl⟩ := hs
      exact key m hm (by simp)
    · simp only [Option.map_eq_some_iff] at hs
      obtain ⟨m, hm, rfl⟩ := hs
      exact key m hm (by simp)
  | reply =>
    simp only [RemoteFleet.step] at hs
    split at hs
    · rename_i i snap ha
      obtain ⟨k1, ⟨pre, p1, p2⟩, st, t0, rs, pc, k3, k4, k5⟩ := h.asked i snap ha
      rw [k4] at hs
      obtain ⟨ja, hja⟩ := (rstackInv_reach hsa).eng
      have hjob : st.toCommand.id.jobId = job.id := calling_job hja k3
      cases pc with
      | asked => simp at hs
      | picking => simp at hs
      | decided r => simp at hs
      | done r =>
        cases r with
        | none =>
          simp only [Option.map_eq_some_iff] at hs
          obtain ⟨n, hn, rfl⟩ := hs
          obtain ⟨n', e1, e2, e3, e4⟩ := noRunner_step k3
          rw [hn, Option.some.injEq] at e1
          subst e1
          refine ⟨h.ver, hnet _ n hn, h.sched, h.good, hkeep rfl, h.offers, by simp, h.fine, ?_, ?_⟩
          · intro sv c hc
            simp only at hc
            rw [e3] at hc; exact h.placed sv c hc
          · intro _ _
            refine ⟨st, by simp only [e2]; rfl, pre, askedAfter_snoc p1 (by simp), fun id md hm hcan => ?_⟩
            have hmem : md ∈ rs := by
              have := AMap.mem_of_get? ((p2 id md).2 hm)
              exact k5.mem_iff.2 (List.mem_map.2 ⟨_, this, rfl⟩)
            exact (sched_reach hca).2.noneOk i _ k4 (.inr rfl) md hmem hcan
        | some r =>
          have hr : (r.id, r) ∈ snap :=
            offered_known k1 (k5.mem_iff.1 ((sched_reach hca).2.someOk i _ k4 r (.inr rfl)).1)
          simp only [AMap.get?_of_mem k1.1 hr, Option.map_eq_some_iff] at hs
          obtain ⟨n, hn, rfl⟩ := hs
          obtain ⟨n', e1, e2, e3, e4⟩ := dispatched_step k3 r.id
          rw [hn, Option.some.injEq] at e1
          subst e1
          refine ⟨h.ver, hnet _ n hn, h.sched, h.good, hkeep rfl, h.offers, by simp, h.fine, ?_, ?_⟩
          · intro sv c hc
            simp only [e3, List.mem_append, List.mem_singleton, Prod.mk.injEq] at hc
            rcases hc with hc | ⟨rfl, rfl⟩
            · exact h.placed sv c hc
            · exact ⟨hjob, i, rs, r, k4, rfl⟩
          · intro _ hc
            simp only at hc
            rw [e4] at hc; cases hc
    · cases hs

theorem fleetInv_reach {version : String} {job : Job} {t : Time} {acts : List FleetAct} {f : RemoteFleet}
    (h : FleetReach version job t acts f) : FleetInv version job t acts f := by
  refine runs_induct (P := fun acts f => FleetInv version job t acts f) ?_ (fun _ _ _ _ _ ih hs => fleetInv_step ih hs) h
  refine ⟨rfl, ⟨[], rfl⟩, ⟨[], rfl⟩, ⟨by simp [RemoteFleet.initial, AMap.keys], by simp [RemoteFleet.initial]⟩, ?_, ?_, ?_, rfl, ?_, ?_⟩ <;>
    simp [RemoteFleet.initial, RemoteStack.initial, JobM.initial, JobPc.reading, reached, placed]

/-! ## The server of the job's docker steps -/

theorem suits_docker {r : RunnerMeta} {c : Command} (h : WantsDocker c) : Suits r c := fun name hn => absurd ⟨name, hn⟩ h

theorem client_unique {cs : AMap Id RunnerMeta} (h : GoodClients cs) {id : Id} {a b : RunnerMeta} (ha : (id, a) ∈ cs) (hb : (id, b) ∈ cs) :
    a = b := by
  have h1 := AMap.get?_of_mem h.1 ha
  rw [AMap.get?_of_mem h.1 hb, Option.some.injEq] at h1
  exact h1.symm

/-- A suitable server that is offered is taken again. -/
theorem findPinned_suits {cs : AMap Id RunnerMeta} (hg : GoodClients cs) {rs : List RunnerMeta} (hrs : ∀ r ∈ rs, (r.id, r) ∈ cs)
    {c : Command} {rid : Id} {md : RunnerMeta} (hmd : (rid, md) ∈ cs) (hoff : ∃ r ∈ rs, r.id = rid) (hs : Suits md c) :
    findPinned rs c rid = some md := by
  obtain ⟨r, hr, hid⟩ := hoff
  have e : r = md := client_unique hg (by have := hrs r hr; rwa [hid] at this) hmd
  subst e
  cases hf : findPinned rs c rid with
  | some r' =>
    obtain ⟨h1, h2, _⟩ := findPinned_spec hf
    have e : r' = r := client_unique hg (by have := hrs r' h1; rwa [h2] at this) hmd
    rw [e]
  | none =>
    unfold findPinned at hf
    rw [List.find?_eq_none] at hf
    have := hf r hr
    rw [if_pos hid] at this
    cases hc : c.container with
    | none => simp [hc] at this
    | some o =>
      by_cases hh : isHostName o.name = true
      · simp only [hc, hh, if_true] at this
        rcases hs o.name (wantsHost_of hc hh) with ⟨a, b⟩ | b <;> simp_all
      · simp [hc, hh] at this

/-- The scheduler's table of jobs follows the job's docker steps. -/
structure OwnInv (job : Job) (f : RemoteFleet) : Prop where
  others : ∀ (k : Nat) (call : SchedCall), f.sched.calls[k]? = some call → call.cmd.id.jobId = job.id →
    (∃ snap, f.asked = some (k, snap)) ∨ ∃ r, call.pc = .done r
  pinned : ∀ sv c, (sv, c) ∈ placed f.net → WantsDocker c → f.sched.st.jobRunners.get? job.id = some sv
  stay : ∀ (i j : Nat) sv c sv' c', i < j → (placed f.net)[i]? = some (sv, c) → WantsDocker c → (placed f.net)[j]? = some (sv', c') →
    ∀ md, (sv, md) ∈ f.clients → Suits md c' → sv' = sv
  look : ∀ k snap rs c, f.asked = some (k, snap) → f.sched.calls[k]? = some ⟨rs, c, .asked⟩ →
    ∀ rid, f.sched.st.jobRunners.get? job.id = some rid → ∃ r ∈ rs, r.id = rid
  picking : ∀ k snap rs c, f.asked = some (k, snap) → f.sched.calls[k]? = some ⟨rs, c, .picking⟩ →
    ∀ rid, f.sched.st.jobRunners.get? job.id = some rid → ∀ md, (rid, md) ∈ f.clients → ¬ Suits md c
  decided : ∀ k snap rs c r, f.asked = some (k, snap) → f.sched.calls[k]? = some ⟨rs, c, .decided (some r)⟩ →
    ∀ rid, f.sched.st.jobRunners.get? job.id = some rid → ∀ md, (rid, md) ∈ f.clients → Suits md c → r.id = rid
  done : ∀ k snap rs c r, f.asked = some (k, snap) → f.sched.calls[k]? = some ⟨rs, c, .done (some r)⟩ →
    (WantsDocker c → f.sched.st.jobRunners.get? job.id = some r.id) ∧
    ∀ rid, f.sched.st.jobRunners.get? job.id = some rid → ∀ md, (rid, md) ∈ f.clients → Suits md c → r.id = rid

/-- The runner a job is bound to is one of the servers. -/
theorem bound_known {version : String} {job : Job} {t : Time} {acts : List FleetAct} {f : RemoteFleet}
    (h : FleetInv version job t acts f) {j : JobId} {rid : Id} (hj : f.sched.st.jobRunners.get? j = some rid) :
    ∃ r, r.id = rid ∧ (r.id, r) ∈ f.clients := by
  obtain ⟨ca, hca⟩ := h.sched
  obtain ⟨h1, h2⟩ := sched_reach hca
  obtain ⟨pre, c, r, post, e, _, _, hr, _⟩ := (h1.jobs j rid).1 hj
  obtain ⟨i, call, g1, _, g3⟩ := h2.sched c r (by rw [e]; simp)
  exact ⟨r, hr, h.offers i call g1 r (h2.someOk i call g1 r (.inr g3)).1⟩

/-- What was placed is on a known server. -/
theorem placed_known {version : String} {job : Job} {t : Time} {acts : List FleetAct} {f : RemoteFleet}
    (h : FleetInv version job t acts f) {sv : Id} {c : Command} (hp : (sv, c) ∈ placed f.net) : ∃ md, (sv, md) ∈ f.clients := by
  obtain ⟨ca, hca⟩ := h.sched
  obtain ⟨_, k, rs, r, g1, g2⟩ := h.placed sv c hp
  subst g2
  exact ⟨r, h.offers k _ g1 r ((sched_reach hca).2.someOk k _ g1 r (.inr rfl)).1⟩

theorem own_same {job : Job} {f f' : RemoteFleet} (h : OwnInv job f) (h1 : f'.sched = f.sched) (h2 : f'.asked = f.asked)
    (h3 : placed f'.net = placed f.net) (h4 : f'.clients = f.clients) : OwnInv job f' := by
  obtain ⟨a, b, s, c, d, e, g⟩ := h
  exact ⟨by rw [h1, h2]; exact a, by rw [h1, h3]; exact b, by rw [h3, h4]; exact s, by rw [h1, h2]; exact c,
    by rw [h1, h2, h4]; exact d, by rw [h1, h2, h4]; exact e, by rw [h1, h2, h4]; exact g⟩

/-- The job's own call, once more. -/
theorem asked_cmd {version : String} {job : Job} {t : Time} {acts : List FleetAct} {f : RemoteFleet}
    (h : FleetInv version job t acts f) {k : Nat} {snap : AMap Id RunnerMeta} (ha : f.asked = some (k, snap)) {call : SchedCall}
    (hk : f.sched.calls[k]? = some call) : call.cmd.id.jobId = job.id := by
  obtain ⟨_, _, st, t0, rs, pc, g1, g2, _⟩ := h.asked k snap ha
  obtain ⟨sa, hsa⟩ := h.net
  obtain ⟨ja, hja⟩ := (rstackInv_reach hsa).eng
  rw [g2] at hk
  cases hk
  exact calling_job hja g1

/-- A move of a call in progress. -/
theorem own_sched {version : String} {job : Job} {t : Time} {acts : List FleetAct} {f : RemoteFleet} {m : SchedM} {a : SchedAct}
    (hi : FleetInv version job t acts f) (h : OwnInv job f) (hs : f.sched.step a = some m)
    (ha : (∃ i, a = .lookup i ∨ a = .pick i ∨ a = .commit i) ∨ ∃ rs c, a = .call rs c ∧ c.id.jobId ≠ job.id) :
    OwnInv job { f with sched := m } := by
  have others : ∀ (k : Nat) (call : SchedCall), m.calls[k]? = some call → call.cmd.id.jobId = job.id →
      (∃ snap, f.asked = some (k, snap)) ∨ ∃ r, call.pc = .done r := by
    intro k call hk hj
    rcases sched_calls hs k call hk with ⟨c0, h1, h2, h3⟩ | ⟨_, h1, _⟩
    · rcases h.others k c0 h1 (by rw [h3]; exact hj) with h4 | ⟨r, h4⟩
      · exact .inl h4
      · obtain ⟨c1, g1, _, _, g4, _⟩ := sched_keeps hs h1
        rw [hk, Option.some.injEq] at g1
        subst g1
        exact .inr ⟨r, g4 r h4⟩
    · rcases ha with ⟨i, ha⟩ | ⟨rs, c, ha, hne⟩
      · rw [h1] at ha; simp at ha
      · rw [h1] at ha; cases ha; exact absurd hj hne
  -- the job's own call is not touched, nor the table entry
  have same : (∀ k snap, f.asked = some (k, snap) → m.calls[k]? = f.sched.calls[k]?) →
      m.st.jobRunners.get? job.id = f.sched.st.jobRunners.get? job.id → OwnInv job { f with sched := m } := by
    intro h1 h2
    refine ⟨others, ?_, h.stay, ?_, ?_, ?_, ?_⟩
    · intro sv c hc hd; simp only [h2]; exact h.pinned sv c hc hd
    · intro k snap rs c hk hc; simp only [h2]; simp only at hk hc; rw [h1 k snap hk] at hc; exact h.look k snap rs c hk hc
    · intro k snap rs c hk hc; simp only [h2]; simp only at hk hc; rw [h1 k snap hk] at hc; exact h.picking k snap rs c hk hc
    · intro k snap rs c r hk hc; simp only [h2]; simp only at hk hc; rw [h1 k snap hk] at hc; exact h.decided k snap rs c r hk hc
    · intro k snap rs c r hk hc; simp only [h2]; simp only at hk hc; rw [h1 k snap hk] at hc; exact h.done k snap rs c r hk hc
  have len : ∀ k snap, f.asked = some (k, snap) → ∃ call, f.sched.calls[k]? = some call := by
    intro k snap hk
    obtain ⟨_, _, _, _, _, _, _, g, _⟩ := hi.asked k snap hk
    exact ⟨_, g⟩
  -- only call `k` changes, to `pc`
  have own : ∀ (k : Nat) (snap : AMap Id RunnerMeta) (pc : SchedPc), f.asked = some (k, snap) →
      m.calls = (f.sched.setCall k pc).calls →
      (∀ sv c, (sv, c) ∈ placed f.net → WantsDocker c → m.st.jobRunners.get? job.id = some sv) →
      pc ≠ .asked →
      (∀ rs c pc0, f.sched.calls[k]? = some ⟨rs, c, pc0⟩ →
        (pc = .picking → ∀ rid, m.st.jobRunners.get? job.id = some rid → ∀ md, (rid, md) ∈ f.clients → ¬ Suits md c) ∧
        (∀ r, pc = .decided (some r) → ∀ rid, m.st.jobRunners.get? job.id = some rid → ∀ md, (rid, md) ∈ f.clients →
          Suits md c → r.id = rid) ∧
        (∀ r, pc = .done (some r) → (WantsDocker c → m.st.jobRunners.get? job.id = some r.id) ∧
          ∀ rid, m.st.jobRunners.get? job.id = some rid → ∀ md, (rid, md) ∈ f.clients → Suits md c → r.id = rid)) →
      OwnInv job { f with sched := m } := by
    intro k snap pc hk hcalls hpl hne hall
    have hget : ∀ k' snap' rs c pc', f.asked = some (k', snap') → m.calls[k']? = some ⟨rs, c, pc'⟩ →
        pc' = pc ∧ ∃ pc0, f.sched.calls[k]? = some ⟨rs, c, pc0⟩ := by
      intro k' snap' rs c pc' hk' hc
      rw [hk, Option.some.injEq, Prod.mk.injEq] at hk'
      obtain ⟨rfl, _⟩ := hk'
      rw [hcalls, getElem?_setCall, if_pos rfl] at hc
      cases hf : f.sched.calls[k]? with
      | none => simp [hf] at hc
      | some c0 =>
        simp only [hf, Option.map_some, Option.some.injEq, SchedCall.mk.injEq] at hc
        obtain ⟨rfl, rfl, rfl⟩ := hc
        exact ⟨rfl, c0.pc, rfl⟩
    refine ⟨others, hpl, h.stay, ?_, ?_, ?_, ?_⟩
    · intro k' snap' rs c hk' hc
      exact absurd (hget k' snap' rs c _ hk' hc).1.symm hne
    · intro k' snap' rs c hk' hc
      obtain ⟨e, pc0, g⟩ := hget k' snap' rs c _ hk' hc
      exact (hall rs c pc0 g).1 e.symm
    · intro k' snap' rs c r hk' hc
      obtain ⟨e, pc0, g⟩ := hget k' snap' rs c _ hk' hc
      exact (hall rs c pc0 g).2.1 r e.symm
    · intro k' snap' rs c r hk' hc
      obtain ⟨e, pc0, g⟩ := hget k' snap' rs c _ hk' hc
      exact (hall rs c pc0 g).2.2 r e.symm
  have untouched : ∀ (i : Nat) (pc : SchedPc), m.calls = (f.sched.setCall i pc).calls → (∀ snap, f.asked ≠ some (i, snap)) →
      ∀ k snap, f.asked = some (k, snap) → m.calls[k]? = f.sched.calls[k]? := by
    intro i pc hcalls hne k snap hk
    rw [hcalls, getElem?_setCall, if_neg]
    rintro rfl
    exact hne snap hk
  -- call `i` is the job's own or not
  have which : ∀ i, (∃ snap, f.asked = some (i, snap)) ∨ ∀ snap, f.asked ≠ some (i, snap) := by
    intro i
    by_cases h : ∃ snap, f.asked = some (i, snap)
    · exact .inl h
    · exact .inr fun snap hs => h ⟨snap, hs⟩
  cases a with
  | stepDone id => rcases ha with ⟨i, ha⟩ | ⟨_, _, ha, _⟩ <;> simp at ha
  | jobDone id => rcases ha with ⟨i, ha⟩ | ⟨_, _, ha, _⟩ <;> simp at ha
  | call rs c =>
    refine same ?_ ?_
    · intro k snap hk
      obtain ⟨call, hc⟩ := len k snap hk
      simp only [SchedM.step, Option.some.injEq] at hs
      subst hs
      exact List.getElem?_append_left (List.getElem?_eq_some_iff.1 hc).1
    · simp only [SchedM.step, Option.some.injEq] at hs
      subst hs
      rfl
  | lookup i =>
    simp only [SchedM.step] at hs
    split at hs
    · rename_i rs c hc
      rcases which i with ⟨snap, hk⟩ | hne
      · have hj := asked_cmd hi hk hc
        simp only at hj
        rw [hj] at hs
        have hpin : ∀ rid, f.sched.st.jobRunners.get? job.id = some rid → ∀ md, (rid, md) ∈ f.clients → Suits md c →
            findPinned rs c rid = some md := fun rid hrid md hmd hsu =>
          findPinned_suits hi.good (hi.offers i _ hc) hmd (h.look i snap rs c hk hc rid hrid) hsu
        split at hs
        · rename_i r hr
          cases hs
          refine own i snap _ hk rfl h.pinned (by simp) ?_
          intro rs' c' pc0 hc'
          rw [hc] at hc'; cases hc'
          refine ⟨by simp, ?_, by simp⟩
          intro r' he rid hrid md hmd hsu
          cases he
          have hrid' : f.sched.st.jobRunners.get? job.id = some rid := hrid
          rw [hrid', Option.bind_some, hpin rid hrid' md hmd hsu] at hr
          cases hr
          exact hi.good.2 _ _ hmd
        · rename_i hr
          cases hs
          refine own i snap _ hk rfl h.pinned (by simp) ?_
          intro rs' c' pc0 hc'
          rw [hc] at hc'; cases hc'
          refine ⟨fun _ rid hrid md hmd hsu => ?_, by simp, by simp⟩
          have hrid' : f.sched.st.jobRunners.get? job.id = some rid := hrid
          rw [hrid', Option.bind_some, hpin rid hrid' md hmd hsu] at hr
          cases hr
      · split at hs <;> cases hs
        · exact same (untouched i _ rfl hne) rfl
        · exact same (untouched i _ rfl hne) rfl
    · cases hs
  | pick i =>
    simp only [SchedM.step] at hs
    split at hs
    · rename_i rs c hc
      cases hs
      rcases which i with ⟨snap, hk⟩ | hne
      · refine own i snap _ hk rfl h.pinned (by simp) ?_
        intro rs' c' pc0 hc'
        rw [hc] at hc'; cases hc'
        refine ⟨by simp, ?_, by simp⟩
        intro r he rid hrid md hmd hsu
        exact absurd hsu (h.picking i snap rs c hk hc rid hrid md hmd)
      · exact same (untouched i _ rfl hne) rfl
    · cases hs
  | commit i =>
    simp only [SchedM.step] at hs
    split at hs
    · rename_i rs c hc
      cases hs
      rcases which i with ⟨snap, hk⟩ | hne
      · refine own i snap _ hk rfl h.pinned (by simp) ?_
        intro rs' c' pc0 hc'
        exact ⟨by simp, by simp, by simp⟩
      · exact same (untouched i _ rfl hne) rfl
    · rename_i rs c r hc
      cases hs
      rcases which i with ⟨snap, hk⟩ | hne
      · have hj := asked_cmd hi hk hc
        simp only at hj
        have htab : (f.sched.st.commit c r).jobRunners.get? job.id =
            if runsOnHost c then f.sched.st.jobRunners.get? job.id else some r.id := by
          simp only [SchedState.commit]
          split
          · rfl
          · rw [hj, AMap.get?_insert_self]
        refine own i snap _ hk rfl ?_ (by simp) ?_
        · intro sv c' hc' hd'
          simp only [htab]
          split
          · exact h.pinned sv c' hc' hd'
          · rename_i hh
            have hd : WantsDocker c := by rw [wantsDocker_iff]; simpa using hh
            obtain ⟨md, hmd⟩ := placed_known hi hc'
            rw [h.decided i snap rs c r hk hc sv (h.pinned sv c' hc' hd') md hmd (suits_docker hd)]
        · intro rs' c' pc0 hc'
          rw [hc] at hc'; cases hc'
          refine ⟨by simp, by simp, ?_⟩
          intro r' he
          cases he
          simp only [htab]
          by_cases hh : runsOnHost c = true
          · refine ⟨fun hd => ?_, ?_⟩
            · rw [wantsDocker_iff] at hd; rw [hd] at hh; cases hh
            · rw [if_pos hh]
              exact h.decided i snap rs c r hk hc
          · rw [if_neg hh]
            exact ⟨fun _ => rfl, fun rid hrid md _ _ => by cases hrid; rfl⟩
      · refine same (untouched i _ rfl hne) ?_
        have hj : c.id.jobId ≠ job.id := by
          intro hj
          rcases h.others i _ hc hj with ⟨snap, hk⟩ | ⟨r, hr⟩
          · exact hne snap hk
          · simp at hr
        simp only [SchedState.commit]
        split
        · rfl
        · rw [AMap.get?_insert, if_neg hj]
    · cases hs

theorem own_step {version : String} {job : Job} {t : Time} {acts : List FleetAct} {f f' : RemoteFleet} {a : FleetAct}
    (hi : FleetInv version job t acts f) (h : OwnInv job f) (hs : f.step a = some f')
    (ho : ∀ rs c, a = .sched (.call rs c) → c.id.jobId ≠ job.id) : OwnInv job f' := by
  cases a with
  | stk b =>
    simp only [RemoteFleet.step] at hs
    split at hs
    · cases hs
    · rename_i hb
      simp only [Option.map_eq_some_iff] at hs
      obtain ⟨n, hn, rfl⟩ := hs
      exact own_same h rfl rfl (stk_frame (by simpa using hb) hn).1 rfl
  | connect ans =>
    simp only [RemoteFleet.step, Option.some.injEq] at hs
    subst hs
    have back : ∀ {id md}, (∃ md0, (id, md0) ∈ f.clients) → (id, md) ∈ connectAll f.version f.clients [ans] → (id, md) ∈ f.clients := by
      rintro id md ⟨md0, h0⟩ h1
      rw [client_unique (connectAll_good hi.good _) h1 (client_mem ans h0)]
      exact h0
    have bound : ∀ {rid md}, f.sched.st.jobRunners.get? job.id = some rid → (rid, md) ∈ connectAll f.version f.clients [ans] →
        (rid, md) ∈ f.clients := by
      intro rid md hr hm
      obtain ⟨r, g1, g2⟩ := bound_known hi hr
      exact back ⟨r, by rw [← g1]; exact g2⟩ hm
    refine ⟨h.others, h.pinned, ?_, h.look, ?_, ?_, ?_⟩
    · intro i j sv c sv' c' hij h1 hd h2 md hm
      exact h.stay i j sv c sv' c' hij h1 hd h2 md (back (placed_known hi (List.mem_of_getElem? h1)) hm)
    · intro k snap rs c hk hc rid hr md hm
      exact h.picking k snap rs c hk hc rid hr md (bound hr hm)
    · intro k snap rs c r hk hc rid hr md hm
      exact h.decided k snap rs c r hk hc rid hr md (bound hr hm)
    · intro k snap rs c r hk hc
      obtain ⟨g1, g2⟩ := h.done k snap rs c r hk hc
      exact ⟨g1, fun rid hr md hm => g2 rid hr md (bound hr hm)⟩
  | ask rs =>
    simp only [RemoteFleet.step] at hs
    split at hs
    · rename_i st t0 hpc hask
      split at hs
      · rename_i hp
        simp only [Bool.and_eq_true, List.isPerm_iff] at hp
        simp only [SchedM.step, Option.map_some, Option.some.injEq] at hs
        subst hs
        have hget : ∀ rs' c pc, (f.sched.calls ++ [{ runners := rs, cmd := st.toCommand }])[f.sched.calls.length]? = some ⟨rs', c, pc⟩ →
            rs' = rs ∧ pc = .asked := by
          intro rs' c pc hc
          simp at hc
          exact ⟨hc.1.symm, hc.2.2.symm⟩
        refine ⟨?_, h.pinned, h.stay, ?_, ?_, ?_, ?_⟩
        · intro k call hk hj
          rcases getElem?_append_cases hk with h1 | ⟨h1, h2⟩
          · rcases h.others k call h1 hj with ⟨snap, h2⟩ | h2
            · rw [hask] at h2; cases h2
            · exact .inr h2
          · have h3 := (List.getElem?_eq_some_iff.1 h2).1
            simp only [List.length_singleton] at h3
            have h4 : k = f.sched.calls.length := by omega
            subst h4
            exact .inl ⟨_, rfl⟩
        · intro k snap rs' c hk hc rid hrid
          simp only [Option.some.injEq, Prod.mk.injEq] at hk
          obtain ⟨rfl, rfl⟩ := hk
          obtain ⟨rfl, _⟩ := hget _ _ _ hc
          obtain ⟨r, g1, g2⟩ := bound_known hi hrid
          exact ⟨r, hp.1.mem_iff.2 (List.mem_map.2 ⟨_, g2, rfl⟩), g1⟩
        · intro k snap rs' c hk hc
          simp only [Option.some.injEq, Prod.mk.injEq] at hk
          obtain ⟨rfl, rfl⟩ := hk
          exact absurd (hget _ _ _ hc).2 (by simp)
        all_goals
          intro k snap rs' c r hk hc
          simp only [Option.some.injEq, Prod.mk.injEq] at hk
          obtain ⟨rfl, rfl⟩ := hk
          exact absurd (hget _ _ _ hc).2 (by simp)
      · cases hs
    · cases hs
  | sched b =>
    simp only [RemoteFleet.step] at hs
    split at hs
    · rename_i rs c
      split at hs
      · simp only [Option.map_eq_some_iff] at hs
        obtain ⟨m, hm, rfl⟩ := hs
        exact own_sched hi h hm (.inr ⟨_, _, rfl, ho _ _ rfl⟩)
      · cases hs
    · cases hs
    · cases hs
    all_goals
      simp only [Option.map_eq_some_iff] at hs
      obtain ⟨m, hm, rfl⟩ := hs
      exact own_sched hi h hm (.inl ⟨_, by first | exact .inl rfl | exact .inr (.inl rfl) | exact .inr (.inr rfl)⟩)
  | reply =>
    simp only [RemoteFleet.step] at hs
    split at hs
    · rename_i i snap ha
      obtain ⟨k1, _, st, t0, rs, pc, k3, k4, k5⟩ := hi.asked i snap ha
      obtain ⟨ca, hca⟩ := hi.sched
      rw [k4] at hs
      -- the call is over
      have others : ∀ r, pc = .done r → ∀ (k : Nat) (call : SchedCall), f.sched.calls[k]? = some call → call.cmd.id.jobId = job.id →
          (∃ snap, (none : Option (Nat × AMap Id RunnerMeta)) = some (k, snap)) ∨ ∃ r, call.pc = .done r := by
        intro r hr k call hk hj
        rcases h.others k call hk hj with ⟨snap', h2⟩ | h2
        · rw [ha, Option.some.injEq, Prod.mk.injEq] at h2
          obtain ⟨rfl, _⟩ := h2
          rw [k4] at hk; cases hk
          exact .inr ⟨r, hr⟩
        · exact .inr h2
      cases pc with
      | asked => simp at hs
      | picking => simp at hs
      | decided r => simp at hs
      | done r =>
        cases r with
        | none =>
          simp only [Option.map_eq_some_iff] at hs
          obtain ⟨n, hn, rfl⟩ := hs
          obtain ⟨n', e1, e2, e3, e4⟩ := noRunner_step k3
          rw [hn, Option.some.injEq] at e1
          subst e1
          exact ⟨others none rfl, by simp only [e3]; exact h.pinned, by simp only [e3]; exact h.stay, by simp, by simp, by simp, by simp⟩
        | some r =>
          have hr : (r.id, r) ∈ snap :=
            offered_known k1 (k5.mem_iff.1 ((sched_reach hca).2.someOk i _ k4 r (.inr rfl)).1)
          simp only [AMap.get?_of_mem k1.1 hr, Option.map_eq_some_iff] at hs
          obtain ⟨n, hn, rfl⟩ := hs
          obtain ⟨n', e1, e2, e3, e4⟩ := dispatched_step k3 r.id
          rw [hn, Option.some.injEq] at e1
          subst e1
          refine ⟨others _ rfl, ?_, ?_, by simp, by simp, by simp, by simp⟩
          · intro sv c hc hd
            simp only [e3, List.mem_append, List.mem_singleton, Prod.mk.injEq] at hc
            rcases hc with hc | ⟨rfl, rfl⟩
            · exact h.pinned sv c hc hd
            · exact (h.done i snap rs _ r ha k4).1 hd
          · intro a b sv c sv' c' hab ga hd gb md hm hsu
            simp only [e3] at ga gb
            rcases getElem?_append_cases gb with gb | ⟨gb, gb'⟩
            · have hlt := (List.getElem?_eq_some_iff.1 gb).1
              rw [List.getElem?_append_left (by omega)] at ga
              exact h.stay a b sv c sv' c' hab ga hd gb md hm hsu
            · have h3 := (List.getElem?_eq_some_iff.1 gb').1
              simp only [List.length_singleton] at h3
              have h4 : b - (placed f.net).length = 0 := by omega
              simp only [h4, List.getElem?_cons_zero, Option.some.injEq, Prod.mk.injEq] at gb'
              obtain ⟨rfl, rfl⟩ := gb'
              rw [List.getElem?_append_left (by omega)] at ga
              exact (h.done i snap rs _ r ha k4).2 sv (h.pinned sv c (List.mem_of_getElem? ga) hd) md hm hsu
    · cases hs

theorem own_reach {version : String} {job : Job} {t : Time} {acts : List FleetAct} {f : RemoteFleet}
    (h : FleetReach version job t acts f) (ho : OnlyRun job acts) : OwnInv job f := by
  refine runs_induct (P := fun acts f => OnlyRun job acts → OwnInv job f) ?_ ?_ h ho
  · intro _
    constructor <;> simp [RemoteFleet.initial, RemoteStack.initial, placed]
  · intro acts a f f' hr ih hs ho
    refine own_step (fleetInv_reach hr) (ih fun rs c hm => ho rs c (by simp [hm])) hs ?_
    rintro rs c rfl
    exact ho rs c (by simp)

end AstroRun
