import Verif.Spec.RemoteEngine
import Verif.Lemmas.TaskMoves
import Verif.Lemmas.RemoteStack

/-! # Lemmas: an engine on the remote runner -/

namespace AstroRun
open Spec

/-! ## Writes to the engine's copy of a stream -/

/-- A stream after a write. -/
def StreamState.write (s : StreamState) : JobAct → StreamState
  | .push l => (s.push l).1
  | .endStream x => (s.endSeq x).1
  | _ => s

theorem sys_absorbAll {ws : List JobAct} {M : Sys} {r i : Nat} {t : SysTask} (hT : taskAt M r i = some t)
    (ha : t.pc.runnerActive = true) :
    (∃ sa, (∀ b ∈ sa, b.byRunner = true) ∧ runs Sys.step M sa = some (M.absorbAll r i ws)) ∧
    taskAt (M.absorbAll r i ws) r i = some { t with stream := ws.foldl StreamState.write t.stream } ∧
    ∀ r' i', ¬ (r' = r ∧ i' = i) → taskAt (M.absorbAll r i ws) r' i' = taskAt M r' i' := by
  induction ws generalizing M t with
  | nil => exact ⟨⟨[], by simp, rfl⟩, hT, fun _ _ _ => rfl⟩
  | cons w ws ih =>
    obtain ⟨ρ, hρ, ht⟩ := taskAt_some hT
    have hi := (List.getElem?_eq_some_iff.1 ht).1
    have hr := (List.getElem?_eq_some_iff.1 hρ).1
    have hcons : M.absorbAll r i (w :: ws) = (M.absorb r i (some w)).absorbAll r i ws := rfl
    rw [hcons]
    have act : ∀ (b : TaskAct) (st : StreamState), (SysAct.task r i b).byRunner = true → t.stream.write w = st →
        M.step (.task r i b) = some { M with runs := M.runs.set r (ρ.setTask i { t with stream := st }) } →
        M.absorb r i (some w) = { M with runs := M.runs.set r (ρ.setTask i { t with stream := st }) } →
        (∃ sa, (∀ b ∈ sa, b.byRunner = true) ∧ runs Sys.step M sa = some ((M.absorb r i (some w)).absorbAll r i ws)) ∧
        taskAt ((M.absorb r i (some w)).absorbAll r i ws) r i = some { t with stream := (w :: ws).foldl StreamState.write t.stream } ∧
        ∀ r' i', ¬ (r' = r ∧ i' = i) → taskAt ((M.absorb r i (some w)).absorbAll r i ws) r' i' = taskAt M r' i' := by
      intro b st h1 h2 h3 h4
      have hT' : taskAt (M.absorb r i (some w)) r i = some { t with stream := st } := by
        rw [h4]; simp [taskAt, hr, SysRun.setTask, hi]
      obtain ⟨⟨sa, k1, k2⟩, k3, k4⟩ := ih hT' ha
      refine ⟨⟨.task r i b :: sa, ?_, ?_⟩, ?_, fun r' i' hne => ?_⟩
      · intro c hc
        simp only [List.mem_cons] at hc
        rcases hc with rfl | hc
        · exact h1
        · exact k1 c hc
      · simp only [runs, h3]
        rw [← h4]; exact k2
      · rw [k3, ← h2]; rfl
      · rw [k4 r' i' hne, h4]
        exact taskAt_set_ne (g := M.mgr) hρ rfl hne
    have none : t.stream.write w = t.stream → M.absorb r i (some w) = M →
        (∃ sa, (∀ b ∈ sa, b.byRunner = true) ∧ runs Sys.step M sa = some ((M.absorb r i (some w)).absorbAll r i ws)) ∧
        taskAt ((M.absorb r i (some w)).absorbAll r i ws) r i = some { t with stream := (w :: ws).foldl StreamState.write t.stream } ∧
        ∀ r' i', ¬ (r' = r ∧ i' = i) → taskAt ((M.absorb r i (some w)).absorbAll r i ws) r' i' = taskAt M r' i' := by
      intro h1 h2
      rw [h2]
      simp only [List.foldl_cons, h1]
      exact ih hT ha
    cases w with
    | push l => exact act (.push l) _ rfl rfl (push_task hρ ht ha l) (by simp only [Sys.absorb, push_task hρ ht ha l, Option.getD_some]; rfl)
    | endStream x => exact act (.endStream x) _ rfl rfl (end_task hρ ht ha x) (by simp only [Sys.absorb, end_task hρ ht ha x, Option.getD_some]; rfl)
    | _ => exact none rfl rfl

theorem write_push (s : StreamState) (ls : List Log) :
    ((ls.map JobAct.push).foldl StreamState.write s).logs = s.logs ++ ls ∧
    ((ls.map JobAct.push).foldl StreamState.write s).result = s.result ∧ ((ls.map JobAct.push).foldl StreamState.write s).index = s.index := by
  induction ls generalizing s with
  | nil => simp
  | cons l ls ih =>
    obtain ⟨h1, h2, h3⟩ := ih (s.push l).1
    simp only [List.map_cons, List.foldl_cons, StreamState.write]
    exact ⟨by rw [h1, StreamState.push_logs]; simp, by rw [h2]; rfl, by rw [h3]; rfl⟩

/-- The copy is brought up to date. -/
theorem write_writes {s o o' : StreamState} (hg : Grew o o') (hl : o.logs = s.logs) (hr : o.result = s.result) :
    ((o.writes o').foldl StreamState.write s).logs = o'.logs ∧ ((o.writes o').foldl StreamState.write s).result = o'.result ∧
    ((o.writes o').foldl StreamState.write s).index = s.index := by
  obtain ⟨t, ht⟩ := hg.logs
  obtain ⟨h1, h2, h3⟩ := write_push s (o'.logs.drop o.logs.length)
  have hlogs : ((((o'.logs.drop o.logs.length).map JobAct.push).foldl StreamState.write s)).logs = o'.logs := by rw [h1, ← hl, ← ht]; simp
  simp only [StreamState.writes, List.foldl_append]
  cases hres : o.result with
  | some r =>
    refine ⟨by simpa using hlogs, ?_, by simpa using h3⟩
    simp only [reduceCtorEq, if_false, List.foldl_nil]
    rw [h2, ← hr, hres, hg.result r hres]
  | none =>
    cases hres' : o'.result with
    | none => simp only [if_true, Option.map_none, Option.toList_none, List.foldl_nil]; exact ⟨hlogs, by rw [h2, ← hr, hres], h3⟩
    | some r =>
      simp only [if_true, Option.map_some, Option.toList_some, List.foldl_cons, List.foldl_nil, StreamState.write]
      exact ⟨by rw [endSeq_logs_eq, hlogs], by rw [endSeq_result_none (by rw [h2, ← hr, hres])], by rw [StreamState.endSeq_index, h3]⟩

/-! ## Moves -/

/-- A call, without what is on the server only. -/
abbrev RCall := Option (Command × RemoteRun)

/-- What the engine's side can know of a call. -/
def callView (o : Option RemoteExec) : RCall := o.map fun x => (x.command, x.net)

/-- What one move does to a job task and its calls; `lab` is what it does in one of them. -/
inductive RMove : Option (Nat × RemoteAct) → Option SysTask → List RCall → Option SysTask → List RCall → Prop
  | same (o vs) : RMove none o vs o vs
  | born (k : Id) (j : Job) (vs) : RMove none none vs (some { key := k, job := j }) vs
  | eng (g g' : SigMgr) (ρ ρ' : SysRun) (now : Time) (i r : Nat) (b : TaskAct) (t t' : SysTask) (vs)
      (hb : (SysAct.task r i b).byRunner = false) (ht : ρ.tasks[i]? = some t) (hs : Sys.taskStep g ρ now i t b = some (g', ρ'))
      (ht' : ρ'.tasks[i]? = some t') :
      RMove none (some t) vs (some t')
        (if t.pc.reading then vs.modify (vs.length - 1) (Option.map fun y => (y.1, y.2.taskMoved b t'.sig)) else vs)
  | dispatched (t : SysTask) (vs) (st : Step) (t0 : Time) (ref : Nat) (hpc : t.pc = .calling st t0 ref) :
      RMove none (some t) vs (some (t.emitThen [.stepState st.id .inProgress] (.handling st t0 ref))) (vs ++ [some (st.toCommand, ({ } : RemoteRun))])
  | refused (t : SysTask) (vs) (st : Step) (t0 : Time) (ref : Nat) (hpc : t.pc = .calling st t0 ref) (s : StreamState)
      (hs : s = [JobAct.push (Log.ofError "No runner available"), JobAct.endStream (.failed 1)].foldl StreamState.write t.stream) :
      RMove none (some t) vs (some ({ t with stream := s }.emitThen [.stepState st.id .inProgress] (.handling st t0 ref))) (vs ++ [none])
  | other (o) (vs) (n : Nat) (a : RemoteAct) (c : Command) (m m' : RemoteRun) (hget : vs[n]? = some (some (c, m)))
      (ha : (∀ v, a ≠ .setSignal v) ∧ a ≠ .engPoll) (hs : m.step a = some m')
      (ho : ∀ t, o = some t → t.pc.reading = true → n + 1 ≠ vs.length) :
      RMove (some (n, a)) o vs o (vs.set n (some (c, m')))
  | wrote (t : SysTask) (vs) (n : Nat) (a : RemoteAct) (c : Command) (m m' : RemoteRun) (hget : vs[n]? = some (some (c, m)))
      (ha : (∀ v, a ≠ .setSignal v) ∧ a ≠ .engPoll) (hs : m.step a = some m') (hr : t.pc.reading = true) (hn : n + 1 = vs.length) :
      RMove (some (n, a)) (some t) vs (some { t with stream := (m.outer.writes m'.outer).foldl StreamState.write t.stream })
        (vs.set n (some (c, m')))

/-- The moves of the engine hidden in a move. -/
def RHidden (a : RemoteEngineAct) (sa : List SysAct) : Prop :=
  match a with
  | .sys b => b.byRunner = false ∧ sa = [b]
  | _ => ∀ b ∈ sa, b.byRunner = true

/-- The move in call `n` a label stands for. -/
def labMoves (n : Nat) : Option (Nat × RemoteAct) → List RemoteAct
  | some (n', a) => if n' = n then [a] else []
  | none => []

theorem updCalls_view (cs : Nat → Nat → List (Option RemoteExec)) (r i : Nat) (f : List (Option RemoteExec) → List (Option RemoteExec)) (r' i' : Nat) :
    (updCalls cs r i f r' i').map callView = if r' = r ∧ i' = i then (f (cs r i)).map callView else (cs r' i').map callView := by
  unfold updCalls
  split
  · rename_i h; obtain ⟨rfl, rfl⟩ := h; rfl
  · rfl

theorem arrives_view (E : RemoteEngine) (sv : Id) (st : StepId) (v : Signal) :
    (E.signalArrives sv st v).sys = E.sys ∧ (E.signalArrives sv st v).signals = E.signals ∧
    ∀ r i, ((E.signalArrives sv st v).calls r i).map callView = (E.calls r i).map callView := by
  simp only [RemoteEngine.signalArrives]
  split
  · refine ⟨rfl, rfl, fun r i => ?_⟩
    rw [updCalls_view]
    split
    · rename_i h
      obtain ⟨rfl, rfl⟩ := h
      exact modify_map_same fun o => by cases o <;> rfl
    · rfl
  · exact ⟨rfl, rfl, fun _ _ => rfl⟩

theorem view_modify (cs : List (Option RemoteExec)) (n : Nat) (b : TaskAct) (sg : SigState) :
    (cs.modify n (Option.map fun x => { x with net := x.net.taskMoved b sg })).map callView =
      (cs.map callView).modify n (Option.map fun y => (y.1, y.2.taskMoved b sg)) := by
  apply List.ext_getElem?
  intro j
  simp only [List.getElem?_map, List.getElem?_modify]
  split <;> cases cs[j]? with
  | none => rfl
  | some o => cases o <;> rfl

theorem view_get {cs : List (Option RemoteExec)} {n : Nat} {x : RemoteExec} (h : cs[n]? = some (some x)) :
    (cs.map callView)[n]? = some (some (x.command, x.net)) := by simp [h, callView]

/-- A move in a call. -/
theorem moved_rmove {E : RemoteEngine} {r0 i0 n : Nat} {x : RemoteExec} {m : RemoteRun} {a : RemoteAct}
    (hget : (E.calls r0 i0)[n]? = some (some x)) (ha : (∀ v, a ≠ .setSignal v) ∧ a ≠ .engPoll) (hs : x.net.step a = some m) :
    (∃ sa, (∀ b ∈ sa, b.byRunner = true) ∧ runs Sys.step E.sys sa = some (E.moved r0 i0 n x m).sys) ∧
    ∀ r i, RMove (if r = r0 ∧ i = i0 then some (n, a) else none) (taskAt E.sys r i) ((E.calls r i).map callView)
      (taskAt (E.moved r0 i0 n x m).sys r i) (((E.moved r0 i0 n x m).calls r i).map callView) := by
  have hset : ∀ (cs : List (Option RemoteExec)), (cs.set n (some { x with net := m })).map callView =
      (cs.map callView).set n (some (x.command, m)) := by
    intro cs; rw [List.map_set]; rfl
  have rest : (E.moved r0 i0 n x m).sys = E.sys →
      (∀ t, taskAt E.sys r0 i0 = some t → t.pc.reading = true → n + 1 ≠ (E.calls r0 i0).length) →
      (∃ sa, (∀ b ∈ sa, b.byRunner = true) ∧ runs Sys.step E.sys sa = some (E.moved r0 i0 n x m).sys) ∧
      ∀ r i, RMove (if r = r0 ∧ i = i0 then some (n, a) else none) (taskAt E.sys r i) ((E.calls r i).map callView)
        (taskAt (E.moved r0 i0 n x m).sys r i) (((E.moved r0 i0 n x m).calls r i).map callView) := by
    intro h1 h2
    refine ⟨⟨[], by simp, by rw [h1]; rfl⟩, fun r i => ?_⟩
    rw [h1]
    simp only [RemoteEngine.moved, updCalls_view]
    split
    · rename_i h
      obtain ⟨rfl, rfl⟩ := h
      rw [hset]
      exact .other _ _ n a x.command x.net m (view_get hget) ha hs (fun t e1 e2 => by simpa using h2 t e1 e2)
    · exact .same _ _
  cases hT : taskAt E.sys r0 i0 with
  | none =>
    refine rest ?_ (fun t e => by simp [hT] at e)
    simp [RemoteEngine.moved, jobTask_eq, hT]
  | some t =>
    by_cases hc : t.pc.reading = true ∧ n + 1 = (E.calls r0 i0).length
    · obtain ⟨hr, hn⟩ := hc
      have hc' : (t.pc.reading && n + 1 == (E.calls r0 i0).length) = true := by simp [hr, hn]
      have hsys : (E.moved r0 i0 n x m).sys = E.sys.absorbAll r0 i0 (x.net.outer.writes m.outer) := by
        simp only [RemoteEngine.moved, jobTask_eq, hT, Option.map_some, hc', if_true]
      obtain ⟨⟨sa, k1, k2⟩, k3, k4⟩ := sys_absorbAll (ws := x.net.outer.writes m.outer) hT (reading_active hr)
      refine ⟨⟨sa, k1, by rw [hsys]; exact k2⟩, fun r i => ?_⟩
      rw [hsys]
      simp only [RemoteEngine.moved, updCalls_view]
      split
      · rename_i h
        obtain ⟨rfl, rfl⟩ := h
        rw [hset, k3, hT]
        exact .wrote t _ n a x.command x.net m (view_get hget) ha hs hr (by simpa using hn)
      · rename_i h
        rw [k4 r i h]
        exact .same _ _
    · have hc' : (t.pc.reading && n + 1 == (E.calls r0 i0).length) = false := by
        cases hr : t.pc.reading
        · rfl
        · simp [hr] at hc; simp [hc]
      refine rest ?_ (fun t' e hr hn => ?_)
      · simp [RemoteEngine.moved, jobTask_eq, hT, hc']
      · rw [hT] at e
        cases e
        exact hc ⟨hr, hn⟩

/-- What a move in a call is. -/
theorem renet_step {E E' : RemoteEngine} {r i n : Nat} {a : RemoteAct} (hs : E.step (.net r i n a) = some E') :
    ∃ x m, (E.calls r i)[n]? = some (some x) ∧ a.byStack = false ∧ x.net.step a = some m ∧
      (((a = .rpcOk ∨ ∃ e, a = .rpcErr e true) ∧
          E' = { E.moved r i n x m with signals := E.signals.insert (x.server, x.command.id) (r, i, n) }) ∨
        (∃ v, a = .sigOk ∧ x.net.cli = .signalling v ∧ E' = (E.moved r i n x m).signalArrives x.server x.command.id v) ∨
        (a ≠ .rpcOk ∧ (∀ e, a ≠ .rpcErr e true) ∧ a ≠ .sigOk ∧ E' = E.moved r i n x m)) := by
  simp only [RemoteEngine.step] at hs
  split at hs
  · rename_i x hx
    split at hs
    · cases hs
    · rename_i hb
      simp only [Option.map_eq_some_iff] at hs
      obtain ⟨m, hm, e⟩ := hs
      refine ⟨x, m, hx, by simpa using hb, hm, ?_⟩
      split at e
      · exact .inl ⟨.inl rfl, e.symm⟩
      · exact .inl ⟨.inr ⟨_, rfl⟩, e.symm⟩
      · split at e
        · rename_i v hv
          exact .inr (.inl ⟨v, rfl, hv, e.symm⟩)
        · rename_i hv
          exfalso
          cases hcli : x.net.cli <;> simp [RemoteRun.step, hcli] at hm
          exact hv _ hcli
      · rename_i h1 h2 h3
        exact .inr (.inr ⟨h1, fun e => h2 e, h3, e.symm⟩)
  · cases hs

theorem refail_step {E E' : RemoteEngine} {r i n : Nat} {b : Bool} (hs : E.step (.signalFailed r i n b) = some E') :
    ∃ x m v, (E.calls r i)[n]? = some (some x) ∧ x.net.step .sigErr = some m ∧ x.net.cli = .signalling v ∧
      E' = if b then (E.moved r i n x m).signalArrives x.server x.command.id v else E.moved r i n x m := by
  simp only [RemoteEngine.step] at hs
  split at hs
  · rename_i x hx
    simp only [Option.map_eq_some_iff] at hs
    obtain ⟨m, hm, e⟩ := hs
    have hm' := hm
    simp only [RemoteRun.step] at hm'
    split at hm'
    · rename_i v hv
      refine ⟨x, m, v, hx, hm, hv, ?_⟩
      rw [← e]
      cases b <;> simp [hv]
    · cases hm'
  · cases hs

/-- The runner answers the call of a job task. -/
theorem accept_move {M M' : Sys} {r i : Nat} {t : SysTask} {st : Step} {t0 : Time} {ref : Nat} (hT : taskAt M r i = some t)
    (hpc : t.pc = .calling st t0 ref) (hs : M.step (.task r i .accept) = some M') :
    taskAt M' r i = some (t.emitThen [.stepState st.id .inProgress] (.handling st t0 ref)) ∧
    ∀ r' i', ¬ (r' = r ∧ i' = i) → taskAt M' r' i' = taskAt M r' i' := by
  obtain ⟨ρ, hρ, ht⟩ := taskAt_some hT
  have hM' : M' = { M with runs := M.runs.set r (ρ.setTask i (t.emitThen [.stepState st.id .inProgress] (.handling st t0 ref))) } := by
    simp [Sys.step, hρ, ht, Sys.taskStep, SysTask.step, hpc] at hs
    exact hs.symm
  have hi := (List.getElem?_eq_some_iff.1 ht).1
  constructor
  · rw [hM']; simp [taskAt, (List.getElem?_eq_some_iff.1 hρ).1, SysRun.setTask, hi]
  · intro r' i' hne
    rw [hM']
    exact taskAt_set_ne (g := M.mgr) hρ rfl hne

/-- One move, seen by any job task. -/
theorem remote_move {E E' : RemoteEngine} {a : RemoteEngineAct} (h : E.step a = some E') :
    (∃ sa, RHidden a sa ∧ runs Sys.step E.sys sa = some E'.sys) ∧
    ∀ r i, ∃ lab, (∀ n, callMoves r i n [a] = labMoves n lab) ∧
      RMove lab (taskAt E.sys r i) ((E.calls r i).map callView) (taskAt E'.sys r i) ((E'.calls r i).map callView) := by
  cases a with
  | sys a =>
    simp only [RemoteEngine.step] at h
    split at h
    · simp at h
    · rename_i hb
      simp only [Option.map_eq_some_iff] at h
      obtain ⟨M, hM, rfl⟩ := h
      refine ⟨⟨[a], ⟨by simpa using hb, rfl⟩, by simp [runs, hM]⟩, fun r i => ⟨none, fun n => rfl, ?_⟩⟩
      by_cases hta : ∃ r i b, a = .task r i b
      · obtain ⟨r0, i0, b, rfl⟩ := hta
        simp only
        rcases sys_step_cases hM with ⟨wf, h1, _⟩ | ⟨n, b', ρ₁, ρ₂, h1, _⟩ |
          ⟨n, j, b', ρ, t, g', ρ', h1, hρ, htt, hmm, rfl⟩ | ⟨n, h1, _⟩ | ⟨j, x, h1, _⟩
        all_goals cases h1
        obtain ⟨t', e1, _⟩ := taskStep_frame hmm
        have hi := (List.getElem?_eq_some_iff.1 htt).1
        have ht' : ρ'.tasks[i0]? = some t' := by rw [e1]; simp [hi]
        have hT : taskAt { E.sys with mgr := g', runs := E.sys.runs.set r0 ρ' } r0 i0 = some t' := by
          simp [taskAt, (List.getElem?_eq_some_iff.1 hρ).1, ht']
        have hT0 : taskAt E.sys r0 i0 = some t := by simp [taskAt, hρ, htt]
        by_cases hri : r = r0 ∧ i = i0
        · obtain ⟨rfl, rfl⟩ := hri
          have : (E.shared { E.sys with mgr := g', runs := E.sys.runs.set r ρ' } (.task r i b) r i).map callView =
              if t.pc.reading then ((E.calls r i).map callView).modify (((E.calls r i).map callView).length - 1)
                (Option.map fun y => (y.1, y.2.taskMoved b t'.sig))
              else (E.calls r i).map callView := by
            simp only [RemoteEngine.shared, jobTask_eq, hT, hT0]
            split
            · rw [updCalls_view, if_pos ⟨rfl, rfl⟩, view_modify, List.length_map]
            · rfl
          rw [this, hT, hT0]
          exact .eng _ g' ρ ρ' E.sys.now i r b t t' _ (by simpa using hb) htt hmm ht'
        · rw [taskAt_set_ne hρ e1 hri]
          have : (E.shared { E.sys with mgr := g', runs := E.sys.runs.set r0 ρ' } (.task r0 i0 b) r i).map callView = (E.calls r i).map callView := by
            simp only [RemoteEngine.shared, jobTask_eq, hT, hT0]
            split
            · rw [updCalls_view, if_neg hri]
            · rfl
          rw [this]
          exact .same _ _
      · have hsh : E.shared M a = E.calls := by
          cases a <;> first | rfl | exact absurd ⟨_, _, _, rfl⟩ hta
        simp only [hsh]
        rcases taskAt_main hM (fun r i b e => hta ⟨r, i, b, e⟩) r i with e | ⟨e1, k, j, e2⟩
        · rw [e]; exact .same _ _
        · rw [e1, e2]; exact .born k j _
  | dispatched r0 i0 sv =>
    simp only [RemoteEngine.step] at h
    split at h
    · rename_i st t0 ref hpc
      simp only [Option.map_eq_some_iff] at h
      obtain ⟨M, hM, rfl⟩ := h
      simp only [Option.map_eq_some_iff] at hpc
      obtain ⟨t, ht, hpc⟩ := hpc
      obtain ⟨k1, k2⟩ := accept_move ht hpc hM
      refine ⟨⟨[.task r0 i0 .accept], by simp [RHidden, SysAct.byRunner], by simp [runs, hM]⟩, fun r i => ⟨none, fun n => rfl, ?_⟩⟩
      simp only [updCalls_view]
      split
      · rename_i hri
        obtain ⟨rfl, rfl⟩ := hri
        rw [k1, show taskAt E.sys r i = some t from ht, List.map_append]
        exact .dispatched t _ st t0 ref hpc
      · rename_i hri
        rw [k2 r i hri]
        exact .same _ _
    · simp at h
  | noRunner r0 i0 =>
    simp only [RemoteEngine.step] at h
    split at h
    · rename_i st t0 ref hpc
      simp only [Option.map_eq_some_iff] at h
      obtain ⟨M, hM, rfl⟩ := h
      simp only [Option.map_eq_some_iff] at hpc
      obtain ⟨t, ht, hpc⟩ := hpc
      have ha : t.pc.runnerActive = true := by rw [hpc]; rfl
      obtain ⟨⟨sa, q1, q2⟩, q3, q4⟩ := sys_absorbAll
        (ws := [JobAct.push (Log.ofError "No runner available"), JobAct.endStream (.failed 1)]) (show taskAt E.sys r0 i0 = some t from ht) ha
      obtain ⟨k1, k2⟩ := accept_move q3 hpc hM
      refine ⟨⟨sa ++ [.task r0 i0 .accept], ?_, ?_⟩, fun r i => ⟨none, fun n => rfl, ?_⟩⟩
      · intro b hb
        simp only [List.mem_append, List.mem_singleton] at hb
        rcases hb with hb | rfl
        · exact q1 b hb
        · rfl
      · rw [runs_append, q2]
        simp [runs, hM]
      simp only [updCalls_view]
      split
      · rename_i hri
        obtain ⟨rfl, rfl⟩ := hri
        rw [k1, show taskAt E.sys r i = some t from ht, List.map_append]
        exact .refused t _ st t0 ref hpc _ rfl
      · rename_i hri
        rw [k2 r i hri, q4 r i hri]
        exact .same _ _
    · simp at h
  | net r0 i0 n a =>
    obtain ⟨x, m, hget, hb, hm, hcase⟩ := renet_step h
    obtain ⟨⟨sa, k1, k2⟩, k3⟩ := moved_rmove hget (byStack_false hb) hm
    have fin : E'.sys = (E.moved r0 i0 n x m).sys →
        (∀ r i, (E'.calls r i).map callView = ((E.moved r0 i0 n x m).calls r i).map callView) →
        (∃ sa, RHidden (.net r0 i0 n a) sa ∧ runs Sys.step E.sys sa = some E'.sys) ∧
        ∀ r i, ∃ lab, (∀ k, callMoves r i k [.net r0 i0 n a] = labMoves k lab) ∧
          RMove lab (taskAt E.sys r i) ((E.calls r i).map callView) (taskAt E'.sys r i) ((E'.calls r i).map callView) := by
      intro e1 e2
      refine ⟨⟨sa, k1, by rw [e1]; exact k2⟩, fun r i => ⟨_, fun k => ?_, by rw [e1, e2]; exact k3 r i⟩⟩
      by_cases h : r = r0 ∧ i = i0
      · obtain ⟨rfl, rfl⟩ := h
        by_cases hk : n = k <;> simp [callMoves, labMoves, hk]
      · have : ¬ (r0 = r ∧ i0 = i ∧ n = k) := fun ⟨e1, e2, _⟩ => h ⟨e1.symm, e2.symm⟩
        simp [callMoves, labMoves, h, this]
    rcases hcase with ⟨_, rfl⟩ | ⟨v, _, _, rfl⟩ | ⟨_, _, _, rfl⟩
    · exact fin rfl (fun _ _ => rfl)
    · obtain ⟨g1, _, g3⟩ := arrives_view (E.moved r0 i0 n x m) x.server x.command.id v
      exact fin g1 g3
    · exact fin rfl (fun _ _ => rfl)
  | signalFailed r0 i0 n b =>
    obtain ⟨x, m, v, hget, hm, _, hcase⟩ := refail_step h
    obtain ⟨⟨sa, k1, k2⟩, k3⟩ := moved_rmove hget (by simp) hm
    have e : E'.sys = (E.moved r0 i0 n x m).sys ∧
        (∀ r i, (E'.calls r i).map callView = ((E.moved r0 i0 n x m).calls r i).map callView) := by
      rw [hcase]
      split
      · obtain ⟨g1, _, g3⟩ := arrives_view (E.moved r0 i0 n x m) x.server x.command.id v
        exact ⟨g1, g3⟩
      · exact ⟨rfl, fun _ _ => rfl⟩
    refine ⟨⟨sa, k1, by rw [e.1]; exact k2⟩, fun r i => ⟨_, fun k => ?_, by rw [e.1, e.2]; exact k3 r i⟩⟩
    by_cases h : r = r0 ∧ i = i0
    · obtain ⟨rfl, rfl⟩ := h
      by_cases hk : n = k <;> simp [callMoves, labMoves, hk]
    · have : ¬ (r0 = r ∧ i0 = i ∧ n = k) := fun ⟨e1, e2, _⟩ => h ⟨e1.symm, e2.symm⟩
      simp [callMoves, labMoves, h, this]
  | stepCompleted r0 sv res =>
    simp only [RemoteEngine.step] at h
    (repeat' split at h) <;> cases h
    exact ⟨⟨[], by simp [RHidden], rfl⟩, fun r i => ⟨none, fun n => rfl, .same _ _⟩⟩

end AstroRun
