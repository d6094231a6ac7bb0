import Verif.Lemmas.SystemAlone
import Verif.Lemmas.LocalEngineMore
import Verif.Lemmas.LocalStack
import Verif.Spec.LocalEngineAlone

/-! # One job run of a busy engine on the local runner, seen alone -/

namespace AstroRun
open Spec

/-- What the job alone, on its own local runner, sees of a move of the engine. -/
inductive SeenAs (r i : Nat) (j : JobId) (lag : List JobAct) : EngineAct → StackAct → Prop
  | tick (a : EngineAct) (n : Nat) (h : lag ≠ [] ∨ ∃ k, a = .sys (.tick k)) : SeenAs r i j lag a (.eng (.tick n))
  | cancel : SeenAs r i j lag (.sys (.cancel j)) (.eng .cancel)
  | late (a : EngineAct) (b : JobAct) (h : b ∈ lag) : SeenAs r i j lag a (.eng b)
  | move (c : TaskAct) (b : JobAct) (h : jobMove c = some b) : SeenAs r i j lag (.sys (.task r i c)) (.eng b)
  | spawned (past : Nat → List RunnerContext) (envs : List (String × String)) : SeenAs r i j lag (.spawned r i past envs) (.spawned past envs)
  | loc (n : Nat) (c : LocalAct) : SeenAs r i j lag (.loc r i n c) (.loc n c)
  | others (r' i' : Nat) (past : Nat → List RunnerContext) (envs : List (String × String)) (mem : RunnerMem) :
      SeenAs r i j lag (.spawned r' i' past envs) (.others mem)

/-- The job run `i` of run `r` of the engine, and the job alone on its own local runner. -/
structure StackView (setup : EngineSetup) (E : LocalEngine) (r i : Nat) (job : Job) (s : LocalStack) (lag : List JobAct) : Prop where
  sys : ∃ sa sl ja, SysReach sa E.sys ∧ HooksKeepJobs sa ∧ AloneInv sa E.sys job r i ja lag s.eng sl
  stack : ∃ sacts, StackReach (forRun setup r) job 0 sacts s
  mem : s.mem = E.mem
  tasks : s.tasks = E.tasks r i

theorem phase_lag {now : Time} {job : Job} {ans : List Bool} {sl : Option (Nat × SigState)} {t : Option SysTask} {lag : List JobAct} {m : JobM}
    (h : AlonePhase now job ans sl t lag m) : (lag = [] ∨ (∃ b, lag = [.check b] ∧ m.pc = .init) ∨ lag = [.finishJob]) ∧
      (lag ≠ [] → m.pc.reading = false) := by
  cases h <;> simp [JobPc.reading]

theorem afterEmit_reading {k : SysPc} (h : k.afterEmit = true) (es : List Event) : (SysPc.emitting es k).reading = k.toJobPc.reading ∧
    stepOf (.emitting es k) = runningStep k.toJobPc := by
  cases k <;> simp [SysPc.afterEmit] at h <;> exact ⟨rfl, rfl⟩

/-- Both are reading, or neither; and then they agree. -/
theorem phase_reading {now : Time} {job : Job} {ans : List Bool} {sl : Option (Nat × SigState)} {t : SysTask} {lag : List JobAct} {m : JobM}
    (h : AlonePhase now job ans sl (some t) lag m) (hf : ∀ es k, t.pc = .emitting es k → k.afterEmit = true) :
    t.pc.reading = m.pc.reading ∧ (m.pc.reading = true → m.sig = t.sig ∧ m.stream = t.stream ∧ lag = [] ∧ m.acc.results = t.results ∧
      stepOf t.pc = runningStep m.pc) := by
  have key : t.pc.reading = t.pc.toJobPc.reading ∧ (t.pc.reading = true → stepOf t.pc = runningStep t.pc.toJobPc) := by
    cases hpc : t.pc with
    | emitting es k =>
      obtain ⟨h1, h2⟩ := afterEmit_reading (hf es k hpc) es
      exact ⟨h1, fun _ => h2⟩
    | _ => simp [SysPc.reading, SysPc.toJobPc, JobPc.reading, stepOf, runningStep]
  generalize hta : some t = ot at h
  cases h with
  | unborn => cases hta
  | init key => cases hta; exact ⟨rfl, fun h => by cases h⟩
  | starting key n b hn hb => cases hta; exact ⟨rfl, fun h => by cases h⟩
  | running t' ref c hj hp =>
    cases hta
    exact ⟨key.1, fun h => ⟨rfl, rfl, rfl, rfl, key.2 (key.1.trans h)⟩⟩
  | finishing t' ref c es E tf hj hr hp hes hE hn =>
    cases hta
    refine ⟨?_, fun h => by cases h⟩
    rw [hp]; rfl
  | over t' hj hp =>
    cases hta
    exact ⟨key.1, fun h => ⟨rfl, rfl, rfl, rfl, key.2 (key.1.trans h)⟩⟩

theorem share_same {l : LocalRun} {sg : SigState} (h : l.sig.signal = sg.signal) : l.shareSignal sg = l := by
  simp only [LocalRun.shareSignal]
  split
  · rename_i v hv
    rw [hv] at h
    simp [SigState.set, h]
  · rfl

theorem modify_same {α : Type} {l : List α} {f : α → α} (h : ∀ x, l.getLast? = some x → f x = x) : l.modify (l.length - 1) f = l := by
  apply List.ext_getElem?
  intro n
  rw [List.getElem?_modify]
  split
  · rename_i e
    subst e
    rw [← List.getLast?_eq_getElem?]
    cases hl : l.getLast? with
    | none => rfl
    | some x => simp [h x hl]
  · simp

/-- What a move of the engine's part of the stack becomes of the tasks. -/
def sharedTasks (ts : List (RunPlan × LocalRun)) (reading : Bool) (sg : SigState) : List (RunPlan × LocalRun) :=
  if reading then ts.modify (ts.length - 1) fun x => (x.1, x.2.shareSignal sg) else ts

theorem shared_same {cfg : LocalSetup} {job : Job} {t : Time} {s : LocalStack} (h : StackInv cfg job t s) :
    sharedTasks s.tasks s.eng.pc.reading s.eng.sig = s.tasks := by
  unfold sharedTasks
  split
  · rename_i hr
    obtain ⟨p, l, h1, _, _, h4, _⟩ := h.link hr
    refine modify_same fun x hx => ?_
    rw [h1] at hx
    cases hx
    rw [share_same h4]
  · rfl

theorem not_reading_keep {m m' : JobM} {ja : List JobAct} (h : runs JobM.step m ja = some m') (hb : ∀ b ∈ ja, b.byRunner = false)
    (hr : m.pc.reading = false) : m'.pc.reading = false := by
  induction ja generalizing m with
  | nil =>
    simp only [runs, Option.some.injEq] at h
    rw [← h]; exact hr
  | cons b ja ih =>
    simp only [runs] at h
    cases hs : m.step b with
    | none => simp [hs] at h
    | some m1 =>
      rw [hs] at h
      refine ih h (fun x hx => hb x (by simp [hx])) ?_
      cases hr1 : m1.pc.reading with
      | false => rfl
      | true => rw [(eng_reading (hb b (by simp)) hs hr1).1] at hr; cases hr

theorem stack_moves {s : LocalStack} {ja : List JobAct} {m' : JobM} (h : runs JobM.step s.eng ja = some m') (hb : ∀ b ∈ ja, b.byRunner = false)
    (hl : ja.length ≤ 1 ∨ s.eng.pc.reading = false) :
    runs LocalStack.step s (ja.map .eng) = some { s with eng := m', tasks := if ja = [] then s.tasks else sharedTasks s.tasks m'.pc.reading m'.sig } := by
  have one : ∀ (s : LocalStack) b m1, b.byRunner = false → s.eng.step b = some m1 →
      s.step (.eng b) = some { s with eng := m1, tasks := sharedTasks s.tasks m1.pc.reading m1.sig } := by
    intro s b m1 h1 h2
    simp [LocalStack.step, h1, h2, sharedTasks]
  match ja, h with
  | [], h =>
    simp only [runs, Option.some.injEq] at h
    subst h
    rfl
  | [b], h =>
    simp only [runs] at h
    cases hs : s.eng.step b with
    | none => simp [hs] at h
    | some m1 =>
      rw [hs] at h
      have h : m1 = m' := by simpa [runs] using h
      subst h
      simp [runs, one s b m1 (hb b (by simp)) hs]
  | b :: b' :: ja, h =>
    have hr : s.eng.pc.reading = false := by
      rcases hl with hl | hl
      · simp at hl
      · exact hl
    have hr' := not_reading_keep h hb hr
    have all : ∀ (ja : List JobAct) (s : LocalStack), runs JobM.step s.eng ja = some m' → (∀ b ∈ ja, b.byRunner = false) →
        s.eng.pc.reading = false → runs LocalStack.step s (ja.map .eng) = some { s with eng := m' } := by
      intro ja
      induction ja with
      | nil =>
        intro s h _ _
        simp only [runs, Option.some.injEq] at h
        subst h
        rfl
      | cons c ja ih =>
        intro s h hb hr
        simp only [runs] at h
        cases hs : s.eng.step c with
        | none => simp [hs] at h
        | some m1 =>
          rw [hs] at h
          have hm1 : m1.pc.reading = false :=
            not_reading_keep (ja := [c]) (m := s.eng) (by simp [runs, hs]) (fun x hx => hb x (by simp at hx; simp [hx])) hr
          have := one s c m1 (hb c (by simp)) hs
          simp only [hm1, sharedTasks, Bool.false_eq_true, if_false] at this
          have hi := ih { s with eng := m1 } h (fun x hx => hb x (by simp [hx])) hm1
          simp only [List.map_cons, runs, this]
          exact hi
    have := all _ s h hb hr
    rw [this]
    simp [hr', sharedTasks]

/-! ## One move of the engine -/

/-- The engine's own part of a move, for the job alone. -/
structure AloneMove (E : LocalEngine) (M : Sys) (r i : Nat) (job : Job) (s : LocalStack) (b : SysAct) (lag ja' lag' : List JobAct) (m' : JobM) : Prop where
  run : runs JobM.step s.eng ja' = some m'
  sys : ∃ sa sl ja, SysReach sa M ∧ HooksKeepJobs sa ∧ AloneInv sa M job r i ja lag' m' sl
  short : ja'.length ≤ 1 ∨ s.eng.pc.reading = false
  cancel : JobAct.cancel ∈ ja' → b = .cancel job.id
  tick : ∀ n, JobAct.tick n ∈ ja' → lag ≠ [] ∨ ∃ k, b = .tick k
  moves : ownMoves ja' ++ lag' = lag ++ jobMoves r i [b]

theorem alone_move {setup : EngineSetup} {E : LocalEngine} {r i : Nat} {job : Job} {s : LocalStack} {lag : List JobAct} {b : SysAct} {M : Sys}
    (h : StackView setup E r i job s lag) (hs : E.sys.step b = some M)
    (hk : ∀ r i c st, b = .task r i (.nextStep c st) → ∀ t, taskAt E.sys r i = some t → st.id.jobId = t.job.id)
    (hno : NoOther M job.id r i) (hjob : ∀ t, taskAt M r i = some t → t.job = job) :
    ∃ ja' lag' m', AloneMove E M r i job s b lag ja' lag' m' := by
  obtain ⟨sa, sl, ja, h1, h2, h3⟩ := h.sys
  obtain ⟨ja', lag', m', sl', e1, e2, e3, e4, e5⟩ := alone_step h1 h2 hs hno hjob h3
  refine ⟨ja', lag', m', e1, ⟨sa ++ [b], sl', ja ++ ja', runs_snoc.2 ⟨_, h1, hs⟩, h2.snoc h1 ?_, e2⟩, e3, e4, e5, ?_⟩
  · rintro r i c st rfl ρ t q1 q2
    exact hk r i c st rfl t (by simp [taskAt, q1, q2])
  · have k1 := e2.moves
    rw [jobMoves_snoc, ← h3.moves, ownMoves_append, List.append_assoc, List.append_assoc] at k1
    exact List.append_cancel_left k1

theorem AloneMove.lagForm {E : LocalEngine} {M : Sys} {r i : Nat} {job : Job} {s : LocalStack} {b : SysAct} {lag ja' lag' : List JobAct} {m' : JobM}
    (h : AloneMove E M r i job s b lag ja' lag' m') : (lag' = [] ∨ (∃ c, lag' = [.check c] ∧ m'.pc = .init) ∨ lag' = [.finishJob]) ∧
      (lag' ≠ [] → m'.pc.reading = false) := by
  obtain ⟨sa, sl, ja, _, _, h3⟩ := h.sys
  exact phase_lag h3.phase

/-- What is in the moves of the job alone. -/
theorem AloneMove.mem {E : LocalEngine} {M : Sys} {r i : Nat} {job : Job} {s : LocalStack} {b : SysAct} {lag ja' lag' : List JobAct} {m' : JobM}
    (h : AloneMove E M r i job s b lag ja' lag' m') {x : JobAct} (hx : x ∈ ja') :
    ((∃ n, x = .tick n) ∧ (lag ≠ [] ∨ ∃ k, b = .tick k)) ∨ (x = .cancel ∧ b = .cancel job.id) ∨ x ∈ lag ∨ ∃ c, b = .task r i c ∧ jobMove c = some x := by
  by_cases ho : x ∈ ownMoves ja'
  · have : x ∈ lag ++ jobMoves r i [b] := by rw [← h.moves]; exact List.mem_append_left _ ho
    rcases List.mem_append.1 this with hl | hl
    · exact .inr (.inr (.inl hl))
    · right; right; right
      cases b with
      | task r' i' c =>
        simp only [jobMoves, List.filterMap_cons, List.filterMap_nil] at hl
        split at hl
        · simp at hl
        · rename_i y hy
          simp only [List.mem_singleton] at hl
          subst hl
          split at hy
          · rename_i e
            obtain ⟨rfl, rfl⟩ := e
            exact ⟨c, rfl, hy⟩
          · cases hy
      | _ => simp [jobMoves] at hl
  · have : (∃ n, x = .tick n) ∨ x = .cancel := by
      cases x with
      | tick n => exact .inl ⟨n, rfl⟩
      | cancel => exact .inr rfl
      | _ => exact absurd (List.mem_filter.2 ⟨hx, rfl⟩) ho
    rcases this with ⟨n, rfl⟩ | rfl
    · exact .inl ⟨⟨n, rfl⟩, h.tick n hx⟩
    · exact .inr (.inl ⟨rfl, h.cancel hx⟩)

theorem AloneMove.lag_mem {E : LocalEngine} {M : Sys} {r i : Nat} {job : Job} {s : LocalStack} {b : SysAct} {lag ja' lag' : List JobAct} {m' : JobM}
    (h : AloneMove E M r i job s b lag ja' lag' m') {x : JobAct} (hx : x ∈ lag') : x ∈ lag ∨ ∃ c, b = .task r i c ∧ jobMove c = some x := by
  have : x ∈ lag ++ jobMoves r i [b] := by rw [← h.moves]; exact List.mem_append_right _ hx
  rcases List.mem_append.1 this with hl | hl
  · exact .inl hl
  · right
    cases b with
    | task r' i' c =>
      simp only [jobMoves, List.filterMap_cons, List.filterMap_nil] at hl
      split at hl
      · simp at hl
      · rename_i y hy
        simp only [List.mem_singleton] at hl
        subst hl
        split at hy
        · rename_i e
          obtain ⟨rfl, rfl⟩ := e
          exact ⟨c, rfl, hy⟩
        · cases hy
    | _ => simp [jobMoves] at hl

/-- A move of the job run itself that cannot be put off. -/
theorem AloneMove.exact {E : LocalEngine} {M : Sys} {r i : Nat} {job : Job} {s : LocalStack} {c : TaskAct} {lag ja' lag' : List JobAct} {m' : JobM}
    (h : AloneMove E M r i job s (.task r i c) lag ja' lag' m') (hl : lag = []) {x : JobAct} (hc : jobMove c = some x) (h1 : ∀ b, x ≠ .check b)
    (h2 : x ≠ .finishJob) : ja' = [x] ∧ lag' = [] := by
  have hm := h.moves
  simp only [hl, List.nil_append, jobMoves, List.filterMap_cons, and_self, if_true, hc, List.filterMap_nil] at hm
  have hlag : lag' = [] := by
    rcases h.lagForm.1 with e | ⟨b, e, _⟩ | e
    · exact e
    · rw [e] at hm
      rcases List.append_eq_singleton_iff.1 hm with ⟨_, h⟩ | ⟨_, h⟩
      · simp at h; exact absurd h.symm (h1 b)
      · simp at h
    · rw [e] at hm
      rcases List.append_eq_singleton_iff.1 hm with ⟨_, h⟩ | ⟨_, h⟩
      · simp at h; exact absurd h.symm h2
      · simp at h
  refine ⟨?_, hlag⟩
  rw [hlag, List.append_nil] at hm
  have : ownMoves ja' = ja' := by
    refine List.filter_eq_self.2 fun y hy => ?_
    cases y with
    | tick n =>
      rcases h.tick n hy with e | ⟨k, e⟩
      · exact absurd hl e
      · cases e
    | cancel => cases h.cancel hy
    | _ => rfl
  rw [← this]; exact hm

theorem jobMove_byRunner {r i : Nat} {c : TaskAct} {x : JobAct} (h : jobMove c = some x) : x.byRunner = (SysAct.task r i c).byRunner := by
  cases c <;> simp [jobMove] at h <;> subst h <;> rfl

theorem StackView.lagForm {setup : EngineSetup} {E : LocalEngine} {r i : Nat} {job : Job} {s : LocalStack} {lag : List JobAct}
    (h : StackView setup E r i job s lag) : (lag = [] ∨ (∃ c, lag = [.check c] ∧ s.eng.pc = .init) ∨ lag = [.finishJob]) ∧
      (lag ≠ [] → s.eng.pc.reading = false) := by
  obtain ⟨sa, sl, ja, _, _, h3⟩ := h.sys
  exact phase_lag h3.phase

theorem StackView.inv {setup : EngineSetup} {E : LocalEngine} {r i : Nat} {job : Job} {s : LocalStack} {lag : List JobAct}
    (h : StackView setup E r i job s lag) : StackInv (forRun setup r) job 0 s := by
  obtain ⟨sacts, h⟩ := h.stack
  exact stackInv_reach h

theorem AloneMove.engine {E : LocalEngine} {M : Sys} {r i : Nat} {job : Job} {s : LocalStack} {b : SysAct} {lag ja' lag' : List JobAct} {m' : JobM}
    {setup : EngineSetup} (h : AloneMove E M r i job s b lag ja' lag' m') (hv : StackView setup E r i job s lag)
    (hb : ∀ c, b = .task r i c → b.byRunner = false) : ∀ x ∈ ja', x.byRunner = false := by
  intro x hx
  rcases h.mem hx with ⟨⟨n, rfl⟩, _⟩ | ⟨rfl, _⟩ | hl | ⟨c, rfl, hc⟩
  · rfl
  · rfl
  · rcases hv.lagForm.1 with e | ⟨c, e, _⟩ | e <;> rw [e] at hl <;> simp at hl <;> subst hl <;> rfl
  · rw [jobMove_byRunner hc]
    exact hb c rfl

/-- A move that is not the job run's. -/
theorem AloneMove.other {E : LocalEngine} {M : Sys} {r i : Nat} {job : Job} {s : LocalStack} {b : SysAct} {lag ja' lag' : List JobAct} {m' : JobM}
    {setup : EngineSetup} (h : AloneMove E M r i job s b lag ja' lag' m') (hv : StackView setup E r i job s lag)
    (hb : ∀ c, b ≠ .task r i c) : runs LocalStack.step s (ja'.map .eng) = some { s with eng := m' } := by
  have hby := h.engine hv (fun c e => absurd e (hb c))
  rw [stack_moves h.run hby h.short]
  split
  · rfl
  · rename_i hne
    have : sharedTasks s.tasks m'.pc.reading m'.sig = s.tasks := by
      cases hr : s.eng.pc.reading with
      | false =>
        rw [not_reading_keep h.run hby hr]
        rfl
      | true =>
        have hlag : lag = [] := by
          refine Classical.byContradiction fun hl => ?_
          rw [hv.lagForm.2 hl] at hr; cases hr
        have hlen : ja'.length ≤ 1 := by
          rcases h.short with e | e
          · exact e
          · rw [e] at hr; cases hr
        have hpos := List.length_pos_iff.2 hne
        obtain ⟨x, rfl⟩ : ∃ x, ja' = [x] := List.length_eq_one_iff.1 (by omega)
        have hrun : s.eng.step x = some m' := by
          have hrun := h.run
          simp only [runs] at hrun
          cases hst : s.eng.step x with
          | none => simp [hst] at hrun
          | some m1 => simpa [hst] using hrun
        have hsame : m'.pc = s.eng.pc ∧ m'.sig = s.eng.sig := by
          rcases h.mem (List.mem_singleton.2 rfl) with ⟨⟨n, rfl⟩, _⟩ | ⟨rfl, _⟩ | hl | ⟨c, rfl, _⟩
          · simp [JobM.step] at hrun; rw [← hrun]; exact ⟨rfl, rfl⟩
          · simp only [JobM.step] at hrun
            split at hrun <;> (simp at hrun; rw [← hrun]; exact ⟨rfl, rfl⟩)
          · rw [hlag] at hl; simp at hl
          · exact absurd rfl (hb c)
        rw [hsame.1, hsame.2]
        exact shared_same hv.inv
    rw [this]

theorem shared_own {E : LocalEngine} {M : Sys} {r i : Nat} {c : TaskAct} {t : SysTask} (h : taskAt M r i = some t) :
    E.shared M (.task r i c) r i = sharedTasks (E.tasks r i) t.pc.reading t.sig := by
  simp only [LocalEngine.shared, jobTask_eq, h, sharedTasks]
  split <;> simp [updTasks]

theorem shared_other {E : LocalEngine} {M : Sys} {r i : Nat} {b : SysAct} (h : ∀ c, b ≠ .task r i c) : E.shared M b r i = E.tasks r i := by
  cases b with
  | task r' i' c =>
    have hne : ¬ (r = r' ∧ i = i') := by
      rintro ⟨rfl, rfl⟩
      exact h c rfl
    simp only [LocalEngine.shared]
    cases M.jobTask r' i' with
    | none => rfl
    | some t =>
      by_cases hr : t.pc.reading = true
      · simp [hr, updTasks, hne]
      · simp [hr]
  | _ => rfl

/-- What the job alone, on its own runner, does when the engine makes the move `a`. -/
structure ViewMove (setup : EngineSetup) (E' : LocalEngine) (r i : Nat) (job : Job) (s : LocalStack) (lag : List JobAct) (a : EngineAct)
    (sacts : List StackAct) (s' : LocalStack) (lag' : List JobAct) : Prop where
  run : runs LocalStack.step s sacts = some s'
  view : StackView setup E' r i job s' lag'
  seen : ∀ x ∈ sacts, SeenAs r i job.id lag a x
  lag_mem : ∀ y ∈ lag', y ∈ lag ∨ ∃ c, a = .sys (.task r i c) ∧ jobMove c = some y
  own : ∀ c b, a = .sys (.task r i c) → jobMove c = some b → lag = [] → (∀ x, b ≠ .check x) → b ≠ .finishJob → StackAct.eng b ∈ sacts
  task : ∀ n c, a = .loc r i n c → StackAct.loc n c ∈ sacts
  short : ∀ b, a = .sys b → s.eng.pc.reading = true → sacts.length ≤ 1

theorem AloneMove.seen {E : LocalEngine} {M : Sys} {r i : Nat} {job : Job} {s : LocalStack} {b : SysAct} {lag ja' lag' : List JobAct} {m' : JobM}
    (h : AloneMove E M r i job s b lag ja' lag' m') {a : EngineAct}
    (hab : a = .sys b ∨ (∀ c, b ≠ .task r i c) ∧ b ≠ .cancel job.id ∧ ∀ k, b ≠ .tick k) : ∀ x ∈ ja'.map StackAct.eng, SeenAs r i job.id lag a x := by
  intro x hx
  obtain ⟨y, hy, rfl⟩ := List.mem_map.1 hx
  rcases h.mem hy with ⟨⟨n, rfl⟩, hn⟩ | ⟨rfl, hc⟩ | hl | ⟨c, hb, hc⟩
  · refine .tick _ _ ?_
    rcases hn with hn | ⟨k, hk⟩
    · exact .inl hn
    · rcases hab with rfl | ⟨_, _, h3⟩
      · exact .inr ⟨k, by rw [hk]⟩
      · exact absurd hk (h3 k)
  · rcases hab with rfl | ⟨_, h2, _⟩
    · rw [hc]; exact .cancel
    · exact absurd hc h2
  · exact .late _ _ hl
  · rcases hab with rfl | ⟨h1, _⟩
    · rw [hb]; exact .move c y hc
    · exact absurd hb (h1 c)

theorem stack_extend {setup : EngineSetup} {E : LocalEngine} {r i : Nat} {job : Job} {s s' : LocalStack} {lag : List JobAct} {sacts : List StackAct}
    (h : StackView setup E r i job s lag) (hr : runs LocalStack.step s sacts = some s') : ∃ sacts', StackReach (forRun setup r) job 0 sacts' s' := by
  obtain ⟨s0, hs0⟩ := h.stack
  refine ⟨s0 ++ sacts, ?_⟩
  unfold StackReach at hs0 ⊢
  rw [runs_append, hs0]
  exact hr

theorem view_step {setup : EngineSetup} {acts : List EngineAct} {E E' : LocalEngine} {a : EngineAct} {r i : Nat} {job : Job} {s : LocalStack}
    {lag : List JobAct} (hE : EngineReach setup acts E) (hk : EngineHooksKeepJobs setup (acts ++ [a])) (hs : E.step a = some E')
    (hno : NoOther E'.sys job.id r i) (hjob : ∀ t, taskAt E'.sys r i = some t → t.job = job) (h : StackView setup E r i job s lag) :
    ∃ sacts s' lag', ViewMove setup E' r i job s lag a sacts s' lag' := by
  have hinv := engineInv_reach hE
  have hinv' := engineInv_step hinv hs
  have hform : ∀ t, taskAt E.sys r i = some t → ∀ es k, t.pc = .emitting es k → k.afterEmit = true := by
    intro t ht es k hpc
    have := hinv.pairs r i
    rw [ht] at this
    exact (PairInv.form this es k hpc).1
  have hform' : ∀ t, taskAt E'.sys r i = some t → ∀ es k, t.pc = .emitting es k → k.afterEmit = true := by
    intro t ht es k hpc
    have := hinv'.pairs r i
    rw [ht] at this
    exact (PairInv.form this es k hpc).1
  cases a with
  | sys b =>
    simp only [LocalEngine.step] at hs
    split at hs
    · simp at hs
    rename_i hb
    simp only [Bool.not_eq_true] at hb
    simp only [Option.map_eq_some_iff] at hs
    obtain ⟨M, hM, rfl⟩ := hs
    obtain ⟨ja', lag', m', hmv⟩ := alone_move h hM
      (fun r i c st e t ht => hk acts r i c st [] (by rw [e]) E hE t ht) hno hjob
    by_cases hown : ∃ c, b = .task r i c
    · obtain ⟨c, rfl⟩ := hown
      have hby := hmv.engine h (fun _ _ => hb)
      have hrun := stack_moves hmv.run hby hmv.short
      obtain ⟨t', ht'⟩ : ∃ t', taskAt M r i = some t' := by
        rcases sys_step_cases hM with ⟨wf, h1, _⟩ | ⟨_, _, ρ₁, ρ₂, h1, _⟩ |
          ⟨_, _, _, ρ₁, t, g', ρ₂, h1, hρ, ht, hmm, rfl⟩ | ⟨n, h1, _⟩ | ⟨j, x, h1, _⟩
        all_goals cases h1
        obtain ⟨t', e1, _⟩ := taskStep_frame hmm
        exact ⟨t', by simp [taskAt, (List.getElem?_eq_some_iff.1 hρ).1, e1, (List.getElem?_eq_some_iff.1 ht).1]⟩
      obtain ⟨sa, sl, ja, q1, q2, q3⟩ := hmv.sys
      have hph := q3.phase
      rw [ht'] at hph
      obtain ⟨k1, k2⟩ := phase_reading hph (hform' t' ht')
      have htasks : (if ja' = [] then s.tasks else sharedTasks s.tasks m'.pc.reading m'.sig) =
          sharedTasks (E.tasks r i) t'.pc.reading t'.sig := by
        have e0 : sharedTasks (E.tasks r i) t'.pc.reading t'.sig = sharedTasks s.tasks m'.pc.reading m'.sig := by
          rw [k1, ← h.tasks]
          cases hr : m'.pc.reading with
          | false => rfl
          | true => rw [(k2 hr).1]
        rw [e0]
        split
        · rename_i hn
          have hm' := hmv.run
          rw [hn] at hm'
          simp only [runs, Option.some.injEq] at hm'
          rw [← hm']
          exact (shared_same h.inv).symm
        · rfl
      refine ⟨ja'.map .eng, _, lag', hrun, ⟨⟨sa, sl, ja, q1, q2, q3⟩, stack_extend h hrun, h.mem, ?_⟩, hmv.seen (.inl rfl), ?_, ?_, ?_, ?_⟩
      · simp only [shared_own ht']
        exact htasks
      · intro y hy
        rcases hmv.lag_mem hy with h1 | ⟨c', h1, h2⟩
        · exact .inl h1
        · exact .inr ⟨c', by rw [h1], h2⟩
      · intro c' b' e1 e2 e3 e4 e5
        cases e1
        rw [(hmv.exact e3 e2 e4 e5).1]
        simp
      · intro n c' e
        cases e
      · intro b' _ hr
        rcases hmv.short with e | e
        · simpa using e
        · rw [e] at hr; cases hr
    · have hown' : ∀ c, b ≠ .task r i c := fun c e => hown ⟨c, e⟩
      have hrun := hmv.other h hown'
      refine ⟨ja'.map .eng, _, lag', hrun, ⟨hmv.sys, stack_extend h hrun, h.mem, ?_⟩, hmv.seen (.inl rfl), ?_, ?_, ?_, ?_⟩
      · simp only [shared_other hown']
        exact h.tasks
      · intro y hy
        rcases hmv.lag_mem hy with h1 | ⟨c', h1, h2⟩
        · exact .inl h1
        · exact absurd h1 (hown' c')
      · intro c' b' e1 e2 _ _
        cases e1
        exact absurd rfl (hown' c')
      · intro n c' e
        cases e
      · intro b' _ hr
        rcases hmv.short with e | e
        · simpa using e
        · rw [e] at hr; cases hr
  | spawned r0 i0 past envs =>
    simp only [LocalEngine.step] at hs
    split at hs
    · rename_i st t0 ref hpc
      simp only [Option.map_eq_some_iff] at hs
      obtain ⟨M, hM, rfl⟩ := hs
      obtain ⟨ja', lag', m', hmv⟩ := alone_move h hM (fun r i c st e t ht => by cases e) hno hjob
      simp only [Option.map_eq_some_iff] at hpc
      obtain ⟨t, ht, hpc⟩ := hpc
      by_cases hri : r0 = r ∧ i0 = i
      · obtain ⟨rfl, rfl⟩ := hri
        obtain ⟨sa0, sl0, ja0, q1, q2, q3⟩ := h.sys
        have hph := q3.phase
        rw [show taskAt E.sys r0 i0 = some t from ht] at hph
        have hcal : s.eng.pc = .calling st t0 ∧ lag = [] := by
          generalize hta : some t = ot at hph
          generalize s.eng = m at hph
          cases hph with
          | unborn => cases hta
          | init key => cases hta; cases hpc
          | starting key n b hn hb => cases hta; cases hpc
          | running t' ref' c hj hp => cases hta; simp [SysTask.toJobM, hpc, SysPc.toJobPc]
          | finishing t' ref' c es E tf hj hr hp hes hE hn => cases hta; rw [hp] at hpc; cases hpc
          | over t' hj hp => cases hta; rw [hpc] at hp; exact absurd hp (by simp [OverAt])
        obtain ⟨rfl, rfl⟩ := hmv.exact hcal.2 (x := .accept) rfl (by simp) (by simp)
        have hacc : s.eng.step .accept = some m' := by
          have := hmv.run
          simp only [runs] at this
          cases hst : s.eng.step .accept with
          | none => simp [hst] at this
          | some m1 => simpa [hst] using this
        have hset := h.inv.setup
        have hrun : runs LocalStack.step s [.spawned past envs] = some
            { s with
              eng := m'
              mem := (startRun E.setup.os E.setup.arch E.setup.workingDirectory E.setup.plugins past E.mem
                { command := st.toCommand, event := E.setup.event r0 } envs).1
              tasks := s.tasks ++ [((startRun E.setup.os E.setup.arch E.setup.workingDirectory E.setup.plugins past E.mem
                  { command := st.toCommand, event := E.setup.event r0 } envs).2,
                LocalRun.initial (startRun E.setup.os E.setup.arch E.setup.workingDirectory E.setup.plugins past E.mem
                  { command := st.toCommand, event := E.setup.event r0 } envs).2 E.setup.plugins.length)] } := by
          simp [runs, LocalStack.step, hcal.1, hacc, hset, forRun, h.mem, hinv.same]
        refine ⟨[.spawned past envs], _, [], hrun, ⟨hmv.sys, stack_extend h hrun, rfl, ?_⟩, ?_, by simp, ?_, ?_, fun b e => by cases e⟩
        · simp [updTasks, h.tasks]
        · intro x hx
          simp only [List.mem_singleton] at hx
          subst hx
          exact .spawned past envs
        · intro c b e; cases e
        · intro n c e; cases e
      · have hown' : ∀ c, SysAct.task r0 i0 .accept ≠ .task r i c := by
          intro c e
          cases e
          exact hri ⟨rfl, rfl⟩
        have hrun := hmv.other h hown'
        have hri' : ¬ (r = r0 ∧ i = i0) := fun e => hri ⟨e.1.symm, e.2.symm⟩
        have hrun2 : runs LocalStack.step s (ja'.map .eng ++ [.others (startRun E.setup.os E.setup.arch E.setup.workingDirectory E.setup.plugins past E.mem
            { command := st.toCommand, event := E.setup.event r0 } envs).1]) = some
            { s with eng := m', mem := (startRun E.setup.os E.setup.arch E.setup.workingDirectory E.setup.plugins past E.mem
              { command := st.toCommand, event := E.setup.event r0 } envs).1 } := by
          rw [runs_append, hrun]
          simp [runs, LocalStack.step]
        refine ⟨_, _, lag', hrun2, ⟨hmv.sys, stack_extend h hrun2, rfl, ?_⟩, ?_, ?_, ?_, ?_, fun b e => by cases e⟩
        · simp only [updTasks, hri', if_false]
          exact h.tasks
        · intro x hx
          rcases List.mem_append.1 hx with hx | hx
          · exact hmv.seen (.inr ⟨hown', by simp, by simp⟩) x hx
          · simp only [List.mem_singleton] at hx
            subst hx
            exact .others _ _ _ _ _
        · intro y hy
          rcases hmv.lag_mem hy with h1 | ⟨c', h1, h2⟩
          · exact .inl h1
          · exact absurd h1 (hown' c')
        · intro c b e; cases e
        · intro n c e; cases e
    · simp at hs
  | loc r0 i0 n c =>
    simp only [LocalEngine.step] at hs
    split at hs
    · simp at hs
    · rename_i c _ _ p l hget hne
      simp only [Option.map_eq_some_iff] at hs
      obtain ⟨l', hl, rfl⟩ := hs
      simp only at hno hjob hform' hinv'
      by_cases hri : r0 = r ∧ i0 = i
      · obtain ⟨rfl, rfl⟩ := hri
        have hget' : s.tasks[n]? = some (p, l) := by rw [h.tasks]; exact hget
        obtain ⟨sa0, sl0, ja0, q1, q2, q3⟩ := h.sys
        have hstep : ∀ e : JobM, (if s.eng.pc.reading && n + 1 == s.tasks.length then s.eng.absorb (l.wrote l') else s.eng) = e →
            runs LocalStack.step s [.loc n c] = some { s with eng := e, tasks := s.tasks.set n (p, l') } := by
          intro e he
          have : s.step (.loc n c) = some { s with eng := e, tasks := s.tasks.set n (p, l') } := by
            rw [← he]
            cases c with
            | setSignal v => exact absurd rfl (hne v)
            | _ => simp [LocalStack.step, hget', hl]
          simp [runs, this]
        -- nothing is written for the engine
        have quiet : (match (E.sys.jobTask r0 i0).map SysTask.pc with
            | some pc => if pc.reading && n + 1 == (E.tasks r0 i0).length then E.sys.absorb r0 i0 (l.wrote l') else E.sys
            | none => E.sys) = E.sys →
            (if s.eng.pc.reading && n + 1 == s.tasks.length then s.eng.absorb (l.wrote l') else s.eng) = s.eng →
            ∃ sacts s' lag', ViewMove setup { E with
              sys := match (E.sys.jobTask r0 i0).map SysTask.pc with
                | some pc => if pc.reading && n + 1 == (E.tasks r0 i0).length then E.sys.absorb r0 i0 (l.wrote l') else E.sys
                | none => E.sys
              tasks := updTasks E.tasks r0 i0 fun ts => ts.set n (p, l') } r0 i0 job s lag (.loc r0 i0 n c) sacts s' lag' := by
          intro h1 h2
          have hrun := hstep _ h2
          refine ⟨_, _, lag, hrun, ⟨?_, stack_extend h hrun, h.mem, ?_⟩, ?_, fun y hy => .inl hy, ?_, ?_, fun b e => by cases e⟩
          · rw [h1]; exact ⟨sa0, sl0, ja0, q1, q2, q3⟩
          · simp [updTasks, h.tasks]
          · intro x hx
            simp only [List.mem_singleton] at hx
            subst hx
            exact .loc n c
          · intro c b e; cases e
          · intro n c e; cases e; simp
        cases ht : E.sys.jobTask r0 i0 with
        | none =>
          rw [ht] at quiet
          refine quiet rfl ?_
          have hph := q3.phase
          rw [show taskAt E.sys r0 i0 = none from ht] at hph
          generalize s.eng = m at hph ⊢
          cases hph
          rfl
        | some t =>
          rw [ht] at quiet hno hjob hform' hinv'
          simp only [Option.map_some] at quiet hno hjob hform' hinv' ⊢
          have hph := q3.phase
          rw [show taskAt E.sys r0 i0 = some t from ht] at hph
          obtain ⟨k1, k2⟩ := phase_reading hph (hform t ht)
          by_cases hc : t.pc.reading = true ∧ n + 1 = (E.tasks r0 i0).length
          · obtain ⟨hr, hn⟩ := hc
            have hrm : s.eng.pc.reading = true := by rw [← k1]; exact hr
            obtain ⟨g1, g2, g3, _⟩ := k2 hrm
            have hc1 : (t.pc.reading && n + 1 == (E.tasks r0 i0).length) = true := by simp [hr, hn]
            have hc2 : (s.eng.pc.reading && n + 1 == s.tasks.length) = true := by rw [h.tasks]; simp [hrm, hn]
            rw [if_pos hc1] at quiet hno hjob hform' hinv' ⊢
            rw [if_pos hc2] at hstep quiet
            obtain ⟨ρ, hρ, htt⟩ := taskAt_some (show taskAt E.sys r0 i0 = some t from ht)
            have loud : ∀ (b : TaskAct) (x : JobAct) (M : Sys), l.wrote l' = some x → jobMove b = some x → x ≠ .finishJob → (∀ y, x ≠ .check y) →
                (∀ y z, b ≠ .nextStep y z) →
                E.sys.step (.task r0 i0 b) = some M → E.sys.absorb r0 i0 (l.wrote l') = M →
                ∃ sacts s' lag', ViewMove setup { E with
                  sys := E.sys.absorb r0 i0 (l.wrote l')
                  tasks := updTasks E.tasks r0 i0 fun ts => ts.set n (p, l') } r0 i0 job s lag (.loc r0 i0 n c) sacts s' lag' := by
              intro b x M e1 e2 e3 e4 e5 e6 e7
              rw [e7] at hno hjob ⊢
              obtain ⟨ja', lag', m', hmv⟩ := alone_move h e6 (fun r i c st e t ht => by cases e; exact absurd rfl (e5 _ _)) hno hjob
              obtain ⟨rfl, rfl⟩ := hmv.exact g3 e2 e4 e3
              have hx : s.eng.step x = some m' := by
                have := hmv.run
                simp only [runs] at this
                cases hst : s.eng.step x with
                | none => simp [hst] at this
                | some m1 => simpa [hst] using this
              have hrun := hstep m' (by rw [e1]; simp [JobM.absorb, hx])
              refine ⟨_, _, [], hrun, ⟨hmv.sys, stack_extend h hrun, h.mem, ?_⟩, ?_, by simp, ?_, ?_, fun b e => by cases e⟩
              · simp [updTasks, h.tasks]
              · intro x hx
                simp only [List.mem_singleton] at hx
                subst hx
                exact .loc n c
              · intro c b e; cases e
              · intro n c e; cases e; simp
            cases wrote_step hl with
            | log x h1 h2 =>
              have hw := wrote_log h1
              exact loud (.push x) (.push x) _ hw rfl (by simp) (by simp) (by simp) (push_task hρ htt (reading_active hr) x)
                (by rw [hw]; simp [Sys.absorb, push_task hρ htt (reading_active hr) x])
            | ended x h1 h2 h3 =>
              have hw := wrote_ended h1 h2 h3
              exact loud (.endStream x) (.endStream x) _ hw rfl (by simp) (by simp) (by simp) (end_task hρ htt (reading_active hr) x)
                (by rw [hw]; simp [Sys.absorb, end_task hρ htt (reading_active hr) x])
            | nothing h1 h2 =>
              have hw := wrote_nothing h1 h2
              exact quiet (by rw [hw]; rfl) (by rw [hw]; rfl)
          · have hc1 : (t.pc.reading && n + 1 == (E.tasks r0 i0).length) = false := by
              cases hr : t.pc.reading
              · rfl
              · simp [hr] at hc; simp [hc]
            have hc2 : (s.eng.pc.reading && n + 1 == s.tasks.length) = false := by rw [h.tasks, ← k1]; exact hc1
            rw [hc1, hc2] at quiet
            rw [hc1]
            exact quiet rfl rfl
      · have hri' : ¬ (r = r0 ∧ i = i0) := fun e => hri ⟨e.1.symm, e.2.symm⟩
        have htasks : updTasks E.tasks r0 i0 (fun ts => ts.set n (p, l')) r i = E.tasks r i := by simp [updTasks, hri']
        have same : ∀ M, M = E.sys → ∃ sacts s' lag', ViewMove setup { E with
              sys := M, tasks := updTasks E.tasks r0 i0 fun ts => ts.set n (p, l') } r i job s lag (.loc r0 i0 n c) sacts s' lag' := by
          rintro M rfl
          refine ⟨[], s, lag, rfl, ⟨h.sys, h.stack, h.mem, ?_⟩, by simp, fun y hy => .inl hy, ?_, ?_, fun b e => by cases e⟩
          · exact h.tasks.trans htasks.symm
          · intro c b e; cases e
          · intro n c e; cases e; exact absurd ⟨rfl, rfl⟩ hri
        have moved : ∀ b M, E.sys.step (.task r0 i0 b) = some M → (∀ y z, b ≠ .nextStep y z) → NoOther M job.id r i →
            (∀ t, taskAt M r i = some t → t.job = job) → ∃ sacts s' lag', ViewMove setup { E with
              sys := M, tasks := updTasks E.tasks r0 i0 fun ts => ts.set n (p, l') } r i job s lag (.loc r0 i0 n c) sacts s' lag' := by
          intro b M e6 e5 hno hjob
          obtain ⟨ja', lag', m', hmv⟩ := alone_move h e6 (fun r i c st e t ht => by cases e; exact absurd rfl (e5 _ _)) hno hjob
          have hown' : ∀ c, SysAct.task r0 i0 b ≠ .task r i c := by
            intro c e
            cases e
            exact hri ⟨rfl, rfl⟩
          have hrun := hmv.other h hown'
          refine ⟨_, _, lag', hrun, ⟨hmv.sys, stack_extend h hrun, h.mem, ?_⟩, hmv.seen (.inr ⟨hown', by simp, by simp⟩), ?_, ?_, ?_, fun b e => by cases e⟩
          · exact h.tasks.trans htasks.symm
          · intro y hy
            rcases hmv.lag_mem hy with h1 | ⟨c', h1, h2⟩
            · exact .inl h1
            · exact absurd h1 (hown' c')
          · intro c b e; cases e
          · intro n c e; cases e; exact absurd ⟨rfl, rfl⟩ hri
        cases ht : E.sys.jobTask r0 i0 with
        | none => exact same _ rfl
        | some t =>
          rw [ht] at hno hjob
          simp only [Option.map_some] at hno hjob ⊢
          split
          · rename_i hc
            rw [if_pos hc] at hno hjob
            simp only [Bool.and_eq_true] at hc
            obtain ⟨ρ, hρ, htt⟩ := taskAt_some (show taskAt E.sys r0 i0 = some t from ht)
            cases wrote_step hl with
            | log x h1 h2 =>
              have hst := push_task hρ htt (reading_active hc.1) x
              have hw : E.sys.step (.task r0 i0 (.push x)) = some (E.sys.absorb r0 i0 (l.wrote l')) := by
                rw [wrote_log h1]; simp only [Sys.absorb, hst, Option.getD_some]
              exact moved (.push x) _ hw (by simp) hno hjob
            | ended x h1 h2 h3 =>
              have hst := end_task hρ htt (reading_active hc.1) x
              have hw : E.sys.step (.task r0 i0 (.endStream x)) = some (E.sys.absorb r0 i0 (l.wrote l')) := by
                rw [wrote_ended h1 h2 h3]; simp only [Sys.absorb, hst, Option.getD_some]
              exact moved (.endStream x) _ hw (by simp) hno hjob
            | nothing h1 h2 =>
              rw [wrote_nothing h1 h2]
              exact same _ rfl
          · exact same _ rfl
    · simp at hs

/-! ## Schedules -/

theorem keepJobs_prefix {setup : EngineSetup} {acts more : List EngineAct} (h : EngineHooksKeepJobs setup (acts ++ more)) :
    EngineHooksKeepJobs setup acts := by
  rintro pre r i b s post rfl E hE t ht
  exact h pre r i b s (post ++ more) (by simp) E hE t ht

theorem sys_keeps {sa : List SysAct} {M M' : Sys} (h : runs Sys.step M sa = some M') {pre : List SysAct} (hM : SysReach pre M) {j : JobId} {r i : Nat} :
    (NoOther M' j r i → NoOther M j r i) ∧ (∀ t, taskAt M r i = some t → ∃ t', taskAt M' r i = some t' ∧ t'.job = t.job) := by
  induction sa generalizing M pre with
  | nil =>
    simp only [runs, Option.some.injEq] at h
    subst h
    exact ⟨id, fun t ht => ⟨t, ht, rfl⟩⟩
  | cons a sa ih =>
    simp only [runs] at h
    cases hs : M.step a with
    | none => simp [hs] at h
    | some M1 =>
      rw [hs] at h
      obtain ⟨h1, h2⟩ := ih h (runs_snoc.2 ⟨_, hM, hs⟩)
      refine ⟨fun hn => (h1 hn).init hM hs, fun t ht => ?_⟩
      obtain ⟨t1, e1, e2⟩ := taskAt_job_keep hs ht
      obtain ⟨t2, e3, e4⟩ := h2 t1 e1
      exact ⟨t2, e3, e4.trans e2⟩

theorem engine_keeps {setup : EngineSetup} {acts : List EngineAct} {E E' : LocalEngine} {a : EngineAct} (hE : EngineReach setup acts E)
    (hs : E.step a = some E') {j : JobId} {r i : Nat} : (NoOther E'.sys j r i → NoOther E.sys j r i) ∧
      (∀ t, taskAt E.sys r i = some t → ∃ t', taskAt E'.sys r i = some t' ∧ t'.job = t.job) := by
  obtain ⟨sa, h1, _⟩ := (engineInv_reach hE).sys
  obtain ⟨_, ⟨sa', _, h2⟩, _⟩ := engine_move hs
  exact sys_keeps h2 h1

theorem engine_keeps_runs {setup : EngineSetup} {acts more : List EngineAct} {E E' : LocalEngine} (hE : EngineReach setup acts E)
    (hs : runs LocalEngine.step E more = some E') {j : JobId} {r i : Nat} : (NoOther E'.sys j r i → NoOther E.sys j r i) ∧
      (∀ t, taskAt E.sys r i = some t → ∃ t', taskAt E'.sys r i = some t' ∧ t'.job = t.job) := by
  induction more generalizing E acts with
  | nil =>
    simp only [runs, Option.some.injEq] at hs
    subst hs
    exact ⟨id, fun t ht => ⟨t, ht, rfl⟩⟩
  | cons a more ih =>
    simp only [runs] at hs
    cases h1 : E.step a with
    | none => simp [h1] at hs
    | some E1 =>
      rw [h1] at hs
      obtain ⟨q1, q2⟩ := ih (runs_snoc.2 ⟨_, hE, h1⟩) hs
      obtain ⟨p1, p2⟩ := engine_keeps hE h1 (j := j) (r := r) (i := i)
      refine ⟨fun h => p1 (q1 h), fun t ht => ?_⟩
      obtain ⟨t1, e1, e2⟩ := p2 t ht
      obtain ⟨t2, e3, e4⟩ := q2 t1 e1
      exact ⟨t2, e3, e4.trans e2⟩

/-- Every job run of the engine that is the only one with its job is a job alone on its own local runner. -/
theorem view_reach {setup : EngineSetup} {acts : List EngineAct} {E : LocalEngine} (h : EngineReach setup acts E)
    (hk : EngineHooksKeepJobs setup acts) {job : Job} {r i : Nat} (hno : NoOther E.sys job.id r i)
    (hjob : ∀ t, taskAt E.sys r i = some t → t.job = job) : ∃ s lag, StackView setup E r i job s lag := by
  induction acts using List.reverseRecOn generalizing E with
  | nil =>
    simp only [EngineReach, runs, Option.some.injEq] at h
    subst h
    refine ⟨LocalStack.initial (forRun setup r) job 0, [], ⟨[], none, [], rfl, ?_, ?_⟩, ⟨[], rfl⟩, rfl, rfl⟩
    · intro pre r i b s post e
      simp at e
    · exact ⟨rfl, rfl, .unborn, rfl⟩
  | append_singleton acts a ih =>
    obtain ⟨E0, hm, hs⟩ := runs_snoc.1 h
    obtain ⟨k1, k2⟩ := engine_keeps hm hs (j := job.id) (r := r) (i := i)
    obtain ⟨s, lag, hv⟩ := ih hm (keepJobs_prefix hk) (k1 hno) (fun t ht => by
      obtain ⟨t', e1, e2⟩ := k2 t ht
      rw [← e2]; exact hjob t' e1)
    obtain ⟨_, s', lag', hmv⟩ := view_step hm hk hs hno hjob hv
    exact ⟨s', lag', hmv.view⟩

/-- The step is executed, or it has ended and the next one has not been begun. -/
def Staying (m : JobM) : Prop := m.pc.reading = true ∨ m.pc = .next

theorem absorb_place {m : JobM} (hm : m.pc.reading = true) {l l' : LocalRun} {a : LocalAct} (hs : l.step a = some l') :
    (m.absorb (l.wrote l')).pc = m.pc := by
  cases wrote_step hs with
  | log x h1 h2 => rw [wrote_log h1]; simp [JobM.absorb, push_reading hm]
  | ended r h1 h0 h2 => rw [wrote_ended h1 h0 h2]; simp [JobM.absorb, end_reading hm]
  | nothing h1 h2 => rw [wrote_nothing h1 h2]; rfl

theorem stay_step {s s' : LocalStack} {a : StackAct} (h : Staying s.eng) (hs : s.step a = some s') (h1 : ∀ b st, a ≠ .eng (.nextStep b st))
    (h2 : a ≠ .eng .finishJob) : Staying s'.eng ∧ s'.tasks.length = s.tasks.length := by
  cases a with
  | eng b =>
    simp only [LocalStack.step] at hs
    split at hs
    · simp at hs
    rename_i hb
    simp only [Bool.not_eq_true] at hb
    simp only [Option.map_eq_some_iff] at hs
    obtain ⟨m, hm, rfl⟩ := hs
    refine ⟨?_, by simp only; split <;> simp⟩
    rcases h with h | h
    · rcases eng_from_reading hb h hm with ⟨e, _⟩ | ⟨_, _, _, _, _, _, _, _, e⟩
      · exact .inl e
      · right; rw [e]; rfl
    · right
      cases b <;> simp only [JobAct.byRunner, reduceCtorEq] at hb <;> simp only [JobM.step, h, reduceCtorEq] at hm
      case nextStep b st => exact absurd rfl (h1 b st)
      case finishJob => exact absurd rfl h2
      all_goals
        repeat' (split at hm)
        all_goals simp only [Option.some.injEq, reduceCtorEq] at hm
        all_goals (subst hm; rfl)
  | spawned past envs =>
    simp only [LocalStack.step] at hs
    split at hs
    · rename_i st t0 hpc
      rcases h with h | h <;> rw [hpc] at h <;> cases h
    · simp at hs
  | others mem =>
    simp only [LocalStack.step, Option.some.injEq] at hs
    subst hs
    exact ⟨h, rfl⟩
  | loc k c =>
    obtain ⟨p, l, l', _, _, hl, rfl⟩ := loc_step hs
    refine ⟨?_, by simp⟩
    show Staying (if _ then _ else _)
    split
    · rename_i hr
      simp only [Bool.and_eq_true] at hr
      left
      rw [absorb_place hr.1 hl]
      exact hr.1
    · exact h

theorem lag_nil {setup : EngineSetup} {E' : LocalEngine} {r i : Nat} {job : Job} {s s' : LocalStack} {a : EngineAct} {sacts : List StackAct}
    {lag' : List JobAct} (h : ViewMove setup E' r i job s [] a sacts s' lag') (hst : Staying s'.eng)
    (h2 : a ≠ .sys (.task r i .finishJob)) : lag' = [] := by
  rcases h.view.lagForm.1 with e | ⟨c, _, e⟩ | e
  · exact e
  · rcases hst with h | h <;> rw [e] at h <;> cases h
  · rcases h.lag_mem .finishJob (by simp [e]) with h' | ⟨c, h', hc⟩
    · simp at h'
    · cases c <;> simp [jobMove] at hc
      exact absurd h' h2

theorem stay_runs {s s' : LocalStack} {sacts : List StackAct} (h : Staying s.eng) (hs : runs LocalStack.step s sacts = some s')
    (h1 : ∀ b st, StackAct.eng (.nextStep b st) ∉ sacts) (h2 : StackAct.eng .finishJob ∉ sacts) :
    Staying s'.eng ∧ s'.tasks.length = s.tasks.length := by
  induction sacts generalizing s with
  | nil =>
    simp only [runs, Option.some.injEq] at hs
    subst hs
    exact ⟨h, rfl⟩
  | cons a sacts ih =>
    simp only [runs] at hs
    cases hst : s.step a with
    | none => simp [hst] at hs
    | some s1 =>
      rw [hst] at hs
      obtain ⟨e1, e2⟩ := stay_step h hst (fun b st e => h1 b st (by simp [e])) (fun e => h2 (by simp [e]))
      obtain ⟨e3, e4⟩ := ih e1 hs (fun b st e => h1 b st (by simp [e])) (fun e => h2 (by simp [e]))
      exact ⟨e3, e4.trans e2⟩

/-- Job run `i` of run `r` does not begin its next step. -/
def Remains (r i : Nat) (a : EngineAct) : Prop := (∀ b st, a ≠ .sys (.task r i (.nextStep b st))) ∧ a ≠ .sys (.task r i .finishJob)

/-- A job run announces something. -/
def isEmit : EngineAct → Bool
  | .sys (.task _ _ .emit) => true
  | _ => false

/-- Work of the step, but for announcing. -/
def stepDeed (r i n : Nat) (a : EngineAct) : Bool := stepWork r i n a && !isEmit a

/-- What the job alone does while the engine follows a schedule in which the step's job run does not begin its next step. -/
structure StayView (setup : EngineSetup) (E' : LocalEngine) (r i n : Nat) (job : Job) (s : LocalStack) (more : List EngineAct)
    (sacts : List StackAct) (s' : LocalStack) : Prop where
  run : runs LocalStack.step s sacts = some s'
  view : StackView setup E' r i job s' []
  seen : ∀ x ∈ sacts, ∃ a ∈ more, SeenAs r i job.id [] a x
  stay : Staying s'.eng
  tasks : s'.tasks.length = s.tasks.length
  work : (more.filter (stepDeed r i n)).length ≤ (sacts.filter (isWork n)).length

theorem seen_remains {r i : Nat} {j : JobId} {a : EngineAct} {x : StackAct} (h : SeenAs r i j [] a x) (ha : Remains r i a) :
    (∀ b st, x ≠ .eng (.nextStep b st)) ∧ x ≠ .eng .finishJob := by
  cases h with
  | late _ b hb => simp at hb
  | move c b hc =>
    cases c <;> simp [jobMove] at hc <;> subst hc <;> simp
    case nextStep b st => exact absurd rfl (ha.1 b st)
    case finishJob => exact absurd rfl ha.2
  | _ => simp

theorem stay_one {setup : EngineSetup} {acts : List EngineAct} {E E' : LocalEngine} {a : EngineAct} {r i n : Nat} {job : Job} {s : LocalStack}
    (hE : EngineReach setup acts E) (hk : EngineHooksKeepJobs setup (acts ++ [a])) (hs : E.step a = some E')
    (hno : NoOther E'.sys job.id r i) (hjob : ∀ t, taskAt E'.sys r i = some t → t.job = job) (h : StackView setup E r i job s [])
    (hst : Staying s.eng) (ha : Remains r i a) : ∃ sacts s', StayView setup E' r i n job s [a] sacts s' ∧
      (∀ b, a = .sys b → s.eng.pc.reading = true → sacts.length ≤ 1) := by
  obtain ⟨sacts, s', lag', hv⟩ := view_step hE hk hs hno hjob h
  have hrem : ∀ x ∈ sacts, (∀ b st, x ≠ .eng (.nextStep b st)) ∧ x ≠ .eng .finishJob := fun x hx => seen_remains (hv.seen x hx) ha
  obtain ⟨e1, e2⟩ := stay_runs hst hv.run (fun b st hx => (hrem _ hx).1 b st rfl) (fun hx => (hrem _ hx).2 rfl)
  obtain rfl := lag_nil hv e1 ha.2
  refine ⟨sacts, s', ⟨hv.run, hv.view, fun x hx => ⟨a, by simp, hv.seen x hx⟩, e1, e2, ?_⟩, hv.short⟩
  cases hd : stepDeed r i n a with
  | false => simp [hd]
  | true =>
    have : ∃ x ∈ sacts, isWork n x = true := by
      simp only [stepDeed, Bool.and_eq_true, Bool.not_eq_true'] at hd
      obtain ⟨h1, h2⟩ := hd
      cases a with
      | sys b =>
        cases b with
        | task r' i' c =>
          simp only [stepWork, Bool.and_eq_true, beq_iff_eq] at h1
          obtain ⟨⟨rfl, rfl⟩, h3⟩ := h1
          cases c <;> simp only [isReading, reduceCtorEq] at h3
          case emit => cases h2
          all_goals exact ⟨_, hv.own _ _ rfl rfl rfl (by simp) (by simp), rfl⟩
        | _ => simp [stepWork] at h1
      | loc r' i' n' c =>
        simp only [stepWork, Bool.and_eq_true, beq_iff_eq] at h1
        obtain ⟨⟨⟨⟨rfl, rfl⟩, rfl⟩, h3⟩, h4⟩ := h1
        exact ⟨_, hv.task n' c rfl, by simp only [isWork, beq_self_eq_true, h3, h4, Bool.and_self]⟩
      | _ => simp [stepWork] at h1
    obtain ⟨x, hx, hw⟩ := this
    have := List.length_pos_of_mem (List.mem_filter.2 ⟨hx, hw⟩)
    simp [hd]
    omega

theorem stay_many {setup : EngineSetup} {acts more : List EngineAct} {E E' : LocalEngine} {r i n : Nat} {job : Job} {s : LocalStack}
    (hE : EngineReach setup acts E) (hk : EngineHooksKeepJobs setup (acts ++ more)) (hr : runs LocalEngine.step E more = some E')
    (hno : NoOther E'.sys job.id r i) (hjob : ∀ t, taskAt E'.sys r i = some t → t.job = job) (h : StackView setup E r i job s [])
    (hst : Staying s.eng) (ha : ∀ a ∈ more, Remains r i a) : ∃ sacts s', StayView setup E' r i n job s more sacts s' := by
  induction more generalizing E acts s with
  | nil =>
    simp only [runs, Option.some.injEq] at hr
    subst hr
    exact ⟨[], s, rfl, h, by simp, hst, rfl, by simp⟩
  | cons a more ih =>
    simp only [runs] at hr
    cases h1 : E.step a with
    | none => simp [h1] at hr
    | some E1 =>
      rw [h1] at hr
      have hE1 : EngineReach setup (acts ++ [a]) E1 := runs_snoc.2 ⟨_, hE, h1⟩
      have hk' : EngineHooksKeepJobs setup ((acts ++ [a]) ++ more) := by simpa using hk
      obtain ⟨k1, k2⟩ := engine_keeps_runs hE1 hr (j := job.id) (r := r) (i := i)
      have hjob1 : ∀ t, taskAt E1.sys r i = some t → t.job = job := by
        intro t ht
        obtain ⟨t', e1, e2⟩ := k2 t ht
        rw [← e2]; exact hjob t' e1
      obtain ⟨sa1, s1, hv1, _⟩ := stay_one (n := n) hE (keepJobs_prefix hk') h1 (k1 hno) hjob1 h hst (ha a (by simp))
      obtain ⟨sa2, s2, hv2⟩ := ih hE1 hk' hr hv1.view hv1.stay (fun a h => ha a (by simp [h]))
      refine ⟨sa1 ++ sa2, s2, ?_, hv2.view, ?_, hv2.stay, hv2.tasks.trans hv1.tasks, ?_⟩
      · rw [runs_append, hv1.run]
        exact hv2.run
      · intro x hx
        rcases List.mem_append.1 hx with hx | hx
        · obtain ⟨y, hy, hs⟩ := hv1.seen x hx
          simp only [List.mem_singleton] at hy
          subst hy
          exact ⟨y, by simp, hs⟩
        · obtain ⟨y, hy, hs⟩ := hv2.seen x hx
          exact ⟨y, by simp [hy], hs⟩
      · have := hv1.work
        have := hv2.work
        rw [show a :: more = [a] ++ more from rfl, List.filter_append, List.filter_append, List.length_append, List.length_append]
        omega

end AstroRun
