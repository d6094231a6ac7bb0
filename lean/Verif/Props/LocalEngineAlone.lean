import Verif.Lemmas.LocalEngineAlone
import Verif.Props.LocalStack
import Verif.Props.LocalEngine
import Verif.Props.SystemAlone

/-! # A step of a busy engine on the local runner: cancelling it, its time limit, and that it ends -/

namespace AstroRun
open Spec

/-! ## From the job alone back to the engine -/

theorem phase_answers {now : Time} {job : Job} {ans : List Bool} {sl : Option (Nat × SigState)} {t : Option SysTask} {lag : List JobAct} {m : JobM}
    (h : AlonePhase now job ans sl t lag m) : m.answers = ans := by
  cases h <;> rfl

theorem phase_clock {now : Time} {job : Job} {ans : List Bool} {sl : Option (Nat × SigState)} {t : Option SysTask} {m : JobM}
    (h : AlonePhase now job ans sl t [] m) : m.now = now := by
  cases h <;> rfl

theorem over_next : ∀ {pc : SysPc}, OverAt pc → pc.toJobPc ≠ .next
  | .emitting _ k, h => over_next (pc := k) h.2
  | .finished _, _ => by simp [SysPc.toJobPc]
  | .sent _, _ => by simp [SysPc.toJobPc]

theorem phase_next {now : Time} {job : Job} {ans : List Bool} {sl : Option (Nat × SigState)} {t : Option SysTask} {m : JobM}
    (h : AlonePhase now job ans sl t [] m) (hn : m.pc = .next)
    (hf : ∀ t', t = some t' → ∀ es k, t'.pc = .emitting es k → k.afterEmit = true) :
    ∃ t', t = some t' ∧ t'.results = m.acc.results ∧ (t'.pc = .next ∨ ∃ es, t'.pc = .emitting es .next) := by
  cases h with
  | unborn => cases hn
  | init => cases hn
  | running t ref c hj hp =>
    refine ⟨t, rfl, rfl, ?_⟩
    simp only [SysTask.toJobM] at hn
    cases hpc : t.pc with
    | emitting es k =>
      have := hf t rfl es k hpc
      rw [hpc] at hn
      right
      refine ⟨es, ?_⟩
      cases k <;> simp [SysPc.toJobPc, SysPc.afterEmit] at hn this ⊢
    | next => exact .inl rfl
    | _ => simp [hpc, SysPc.toJobPc] at hn
  | over t hj hp => exact absurd hn (over_next hp)

theorem task_enabled {M : Sys} {r i : Nat} {t : SysTask} (ht : taskAt M r i = some t) {a : TaskAct}
    (h : ∀ ρ, (Sys.taskStep M.mgr ρ M.now i t a).isSome = true) : (M.step (.task r i a)).isSome = true := by
  obtain ⟨ρ, h1, h2⟩ := taskAt_some ht
  have := h ρ
  obtain ⟨x, hx⟩ := Option.isSome_iff_exists.1 this
  simp [Sys.step, h1, h2, hx]

theorem engine_enabled {E : LocalEngine} {b : SysAct} (hb : b.byRunner = false) (h : (E.sys.step b).isSome = true) :
    (E.step (.sys b)).isSome = true := by
  simp [LocalEngine.step, hb, h]


theorem form_reach {setup : EngineSetup} {acts : List EngineAct} {E : LocalEngine} (h : EngineReach setup acts E) {r i : Nat} {t : SysTask}
    (ht : taskAt E.sys r i = some t) : ∀ es k, t.pc = .emitting es k → k.afterEmit = true := by
  intro es k hpc
  have := (engineInv_reach h).pairs r i
  rw [ht] at this
  exact (PairInv.form this es k hpc).1

/-- What the job alone is when its job run is executing a step. -/
theorem view_busy {setup : EngineSetup} {acts : List EngineAct} {E : LocalEngine} (hE : EngineReach setup acts E) {r i n : Nat} {job : Job}
    {s : LocalStack} {lag : List JobAct} (h : StackView setup E r i job s lag) {t : SysTask} (ht : taskAt E.sys r i = some t)
    {st : Step} (hb : Busy E r i n st) :
    lag = [] ∧ s.eng.pc.reading = true ∧ runningStep s.eng.pc = some st ∧ s.eng.sig = t.sig ∧ s.eng.stream = t.stream ∧
      s.eng.acc.results = t.results ∧ s.tasks.length = n + 1 := by
  obtain ⟨t', h1, h2, h3, h4⟩ := hb
  rw [ht] at h1
  cases h1
  obtain ⟨sa, sl, ja, _, _, h7⟩ := h.sys
  have hph := h7.phase
  rw [ht] at hph
  obtain ⟨k1, k2⟩ := phase_reading hph (form_reach hE ht)
  rw [h2] at k1
  obtain ⟨e1, e2, e3, e4, e5⟩ := k2 k1.symm
  exact ⟨e3, k1.symm, by rw [← e5, h3], e1, e2, e4, by rw [h.tasks, h4]⟩

/-- The job alone can go on with the step, so can its job run. -/
theorem work_back {setup : EngineSetup} {acts : List EngineAct} {E : LocalEngine} (hE : EngineReach setup acts E) {r i n : Nat} {job : Job}
    {s : LocalStack} (h : StackView setup E r i job s []) (hr : s.eng.pc.reading = true) {x : StackAct} (hx : isWork n x = true)
    (hs : (s.step x).isSome = true) :
    ∃ a, stepWork r i n a = true ∧ (x ≠ .eng .timer → a ≠ .sys (.task r i .timer)) ∧ (E.step a).isSome = true := by
  obtain ⟨sa, sl, ja, _, _, h7⟩ := h.sys
  have hph := h7.phase
  have hslot := h7.slot
  have htasks := h.tasks
  cases x with
  | loc k c =>
    simp only [isWork, Bool.and_eq_true, beq_iff_eq, Bool.not_eq_true'] at hx
    obtain ⟨⟨rfl, h2⟩, h3⟩ := hx
    refine ⟨.loc r i k c, by simp [stepWork, h2, h3], by simp, ?_⟩
    obtain ⟨s1, hs1⟩ := Option.isSome_iff_exists.1 hs
    obtain ⟨p, l, l', e1, e2, e3, _⟩ := loc_step hs1
    rw [htasks] at e1
    cases c with
    | setSignal v => exact absurd rfl (e2 v)
    | _ => simp [LocalEngine.step, e1, e3]
  | eng b =>
    have hform := fun t ht => form_reach (t := t) hE (r := r) (i := i) ht
    have hbr : b.byRunner = false := by cases b <;> simp [isWork] at hx <;> rfl
    have hsb : s.eng.step b ≠ none := by
      intro e
      simp [LocalStack.step, hbr, e] at hs
    cases hta : taskAt E.sys r i with
    | none =>
      rw [hta] at hph
      generalize s.eng = m at hph hr
      cases hph
      cases hr
    | some t =>
      have hf := hform t hta
      rw [hta] at hph
      generalize hot : some t = ot at hph
      generalize s.eng = m at hph hr hsb
      cases hph with
      | unborn => cases hr
      | init => cases hr
      | over t' hj hp =>
        cases hot
        exact absurd hr (by
          have : ∀ {pc : SysPc}, OverAt pc → pc.toJobPc.reading = false := by
            intro pc
            induction pc with
            | emitting es k ih => exact fun h => ih h.2
            | _ => intro h; first | rfl | exact h.elim
          simp [SysTask.toJobM, this hp])
      | running t' ref c hj hp =>
        cases hot
        by_cases hem : ∃ es k, t.pc = .emitting es k
        · obtain ⟨es, k, hpc⟩ := hem
          refine ⟨.sys (.task r i .emit), by simp [stepWork, isReading], by simp, engine_enabled rfl (task_enabled hta fun ρ => ?_)⟩
          simp only [Sys.taskStep, hpc]
          cases es <;> rfl
        · have hsel : ∀ s0 t0 d ref', t.pc = .select s0 t0 d ref' → ref' = ref := by
            intro s0 t0 d ref' hpc
            rw [hpc] at hp
            exact hp
          cases b <;> simp only [isWork, reduceCtorEq] at hx
          case enter =>
            refine ⟨.sys (.task r i .enter), by simp [stepWork, isReading], by simp, engine_enabled rfl (task_enabled hta fun ρ => ?_)⟩
            cases hpc : t.pc <;> simp [JobM.step, SysTask.toJobM, hpc, SysPc.toJobPc] at hsb
            · exact absurd ⟨_, _, hpc⟩ hem
            · simp [Sys.taskStep, SysTask.step, hpc]
          case timer =>
            refine ⟨.sys (.task r i .timer), by simp [stepWork, isReading], by simp, engine_enabled rfl (task_enabled hta fun ρ => ?_)⟩
            cases hpc : t.pc <;> simp [JobM.step, SysTask.toJobM, hpc, SysPc.toJobPc] at hsb
            · exact absurd ⟨_, _, hpc⟩ hem
            · simp [Sys.taskStep, SysTask.step, hpc, hsb]
          case jobSignal =>
            refine ⟨.sys (.task r i .jobSignal), by simp [stepWork, isReading], by simp, engine_enabled rfl (task_enabled hta fun ρ => ?_)⟩
            cases hpc : t.pc <;> simp [JobM.step, SysTask.toJobM, hpc, SysPc.toJobPc] at hsb
            · exact absurd ⟨_, _, hpc⟩ hem
            · obtain rfl := hsel _ _ _ _ hpc
              simp only [Sys.taskStep, hpc, hslot.2]
              revert hsb
              generalize c.poll 0 = q
              rcases q with ⟨a, _ | v⟩ <;> simp
          case recv =>
            refine ⟨.sys (.task r i .recv), by simp [stepWork, isReading], by simp, engine_enabled rfl (task_enabled hta fun ρ => ?_)⟩
            cases hpc : t.pc <;> simp only [JobM.step, SysTask.toJobM, hpc, SysPc.toJobPc, ne_eq, not_true_eq_false] at hsb
            · exact absurd ⟨_, _, hpc⟩ hem
            · simp only [Sys.taskStep, SysTask.step, hpc]
              revert hsb
              simp only [StreamState.poll]
              cases t.stream.logs[t.stream.index]? with
              | some x => simp
              | none => cases hres : t.stream.result <;> simp
  | _ => simp [isWork] at hx

theorem view_answers {setup : EngineSetup} {E : LocalEngine} {r i : Nat} {job : Job} {s : LocalStack} {lag : List JobAct}
    (h : StackView setup E r i job s lag) : s.eng.answers = answersFor job.id E.sys := by
  obtain ⟨sa, sl, ja, _, _, h7⟩ := h.sys
  exact phase_answers h7.phase

theorem view_clock {setup : EngineSetup} {E : LocalEngine} {r i : Nat} {job : Job} {s : LocalStack}
    (h : StackView setup E r i job s []) : s.eng.now = E.sys.now := by
  obtain ⟨sa, sl, ja, _, _, h7⟩ := h.sys
  exact phase_clock h7.phase

theorem spares_remains {r i n : Nat} {a : EngineAct} (h : sparesStep r i n a = true) : Remains r i a := by
  constructor
  · rintro b st rfl
    simp [sparesStep] at h
  · rintro rfl
    simp [sparesStep] at h

theorem spares_seen {r i n : Nat} {j : JobId} {a : EngineAct} {x : StackAct} (h : sparesStep r i n a = true) (hx : SeenAs r i j [] a x) :
    sparesTask n x = true := by
  cases hx with
  | late _ b hb => simp at hb
  | move c b hc => cases c <;> simp [jobMove] at hc <;> subst hc <;> simp [sparesStep, sparesTask] at h ⊢
  | loc k c => cases c <;> simp_all [sparesStep, sparesTask, isFailure]
  | _ => rfl

/-- The engine's view of a step that the job alone has ended. -/
theorem ended_back {setup : EngineSetup} {acts : List EngineAct} {E' : LocalEngine} (hE : EngineReach setup acts E') {r i : Nat} {job : Job}
    {s s' : LocalStack} (h : StackView setup E' r i job s' []) {t : SysTask} (ht : s.eng.acc.results = t.results) {x : StepRunResult}
    (he : EndedWith s s' x) : StepEnded t E' r i x := by
  obtain ⟨sa, sl, ja, _, _, h7⟩ := h.sys
  obtain ⟨t', h1, h2, h3⟩ := phase_next h7.phase he.1 (fun t' ht' => form_reach hE ht')
  exact ⟨t', h1, by rw [h2, he.2, ht], h3⟩

theorem busy_back {setup : EngineSetup} {acts : List EngineAct} {E' : LocalEngine} (hE : EngineReach setup acts E') {r i n : Nat} {job : Job}
    {s' : LocalStack} (h : StackView setup E' r i job s' []) (hl : s'.tasks.length = n + 1) {st : Step} {p : RunPlan} {l : LocalRun}
    (he : Executing s' st p l) : Busy E' r i n st := by
  obtain ⟨h1, h2⟩ := executing_reading he
  obtain ⟨sa, sl, ja, _, _, h7⟩ := h.sys
  have hph := h7.phase
  cases hta : taskAt E'.sys r i with
  | none =>
    rw [hta] at hph
    generalize s'.eng = m at hph h1
    cases hph
    cases h1
  | some t =>
    rw [hta] at hph
    obtain ⟨k1, k2⟩ := phase_reading hph (form_reach hE hta)
    obtain ⟨_, _, _, _, e5⟩ := k2 h1
    exact ⟨t, hta, by rw [k1, h1], by rw [e5, h2], by rw [← h.tasks, hl]⟩

theorem short_run {s s' : LocalStack} {sc : List StackAct} (hlen : sc.length ≤ 1) (h : runs LocalStack.step s sc = some s') :
    (sc = [] ∧ s' = s) ∨ ∃ y, sc = [y] ∧ s.step y = some s' := by
  cases sc with
  | nil =>
    simp only [runs, Option.some.injEq] at h
    exact .inl ⟨rfl, h.symm⟩
  | cons y sc =>
    cases sc with
    | nil =>
      refine .inr ⟨y, rfl, ?_⟩
      simp only [runs] at h
      cases hst : s.step y with
      | none => simp [hst] at h
      | some s2 => rw [hst] at h; exact h
    | cons z sc => simp at hlen

/-- **C105** (cancelling) When `cancel_job` is answered `Ok` while a job run of a busy engine is waiting for the process of
its step, then, whatever the rest of the engine, its users and its runner do, and as long as the process does not exit by
itself: either the step has ended Cancelled, and its container was told to stop, or somebody who works for the step can go on
with it. (No time limit runs out; no other job run has this job.) -/
theorem C105_cancel (setup : EngineSetup) (acts : List EngineAct) (E E1 : LocalEngine) (h : EngineReach setup acts E) (r i n : Nat)
    (t : SysTask) (ht : taskAt E.sys r i = some t) (st : Step) (hb : Busy E r i n st) (p : RunPlan) (l : LocalRun)
    (hl : (E.tasks r i)[n]? = some (p, l)) (hrun : Running l) (hsig : t.sig.signal = none)
    (hc : E.step (.sys (.cancel t.job.id)) = some E1) (hok : E1.sys.answers = E.sys.answers ++ [(t.job.id, true)])
    (more : List EngineAct) (E' : LocalEngine) (hr : runs LocalEngine.step E1 more = some E')
    (hm : ∀ a ∈ more, sparesStep r i n a = true ∧ a ≠ .sys (.task r i .timer))
    (hk : EngineHooksKeepJobs setup (acts ++ .sys (.cancel t.job.id) :: more)) (hno : NoOther E'.sys t.job.id r i) :
    (∃ x l', StepEnded t E' r i x ∧ x.id = st.id ∧ x.state = .cancelled ∧ (E'.tasks r i)[n]? = some (p, l') ∧
      (p.kind = .docker → l'.kills = ["docker kill " ++ p.dirs.dockerName])) ∨
    Busy E' r i n st ∧ ∃ a, stepWork r i n a = true ∧ a ≠ .sys (.task r i .timer) ∧ (E'.step a).isSome = true := by
  have hE1 : EngineReach setup (acts ++ [.sys (.cancel t.job.id)]) E1 := runs_snoc.2 ⟨_, h, hc⟩
  have hE' : EngineReach setup ((acts ++ [.sys (.cancel t.job.id)]) ++ more) E' := by
    unfold EngineReach at hE1 ⊢
    rw [runs_append, hE1]; exact hr
  have hk1 : EngineHooksKeepJobs setup ((acts ++ [.sys (.cancel t.job.id)]) ++ more) := by simpa using hk
  have hno1 := (engine_keeps_runs hE1 hr (j := t.job.id) (r := r) (i := i)).1 hno
  have hno0 := (engine_keeps h hc (j := t.job.id) (r := r) (i := i)).1 hno1
  obtain ⟨t1, ht1, hj1⟩ := (engine_keeps h hc (j := t.job.id) (r := r) (i := i)).2 t ht
  obtain ⟨t', ht', hj'⟩ := (engine_keeps_runs hE1 hr (j := t.job.id) (r := r) (i := i)).2 t1 ht1
  obtain ⟨s, lag, hv⟩ := view_reach h (keepJobs_prefix (keepJobs_prefix hk1)) hno0 (fun u hu => by rw [ht] at hu; cases hu; rfl)
  obtain ⟨rfl, b2, b3, b4, b5, b6, b7⟩ := view_busy h hv ht hb
  obtain ⟨sc, s1, hv1, hshort⟩ := stay_one (n := n) h (keepJobs_prefix hk1) hc hno1
    (fun u hu => by rw [ht1] at hu; cases hu; exact hj1) hv (.inl b2) ⟨by simp, by simp⟩
  have hstep : s.step (.eng .cancel) = some s1 ∧ s1.eng.answers = s.eng.answers ++ [true] := by
    have hans : s1.eng.answers = s.eng.answers ++ [true] := by
      rw [view_answers hv1.view, view_answers hv, answersFor, hok]
      simp [answersFor]
    refine ⟨?_, hans⟩
    have hlen := hshort _ rfl b2
    rcases short_run hlen hv1.run with ⟨_, e⟩ | ⟨y, e1, e2⟩
    · rw [e] at hans
      simp at hans
    · obtain ⟨a, ha, hs⟩ := hv1.seen y (by simp [e1])
      simp only [List.mem_singleton] at ha
      subst ha
      cases hs with
      | tick _ n h =>
        rcases h with h | ⟨k, h⟩
        · exact absurd rfl h
        · cases h
      | cancel => exact e2
      | late _ b hb => simp at hb
  obtain ⟨sm, s', hv'⟩ := stay_many (n := n) hE1 hk1 hr hno (fun u hu => by rw [ht'] at hu; cases hu; exact hj'.trans hj1) hv1.view hv1.stay
    (fun a ha => spares_remains (hm a ha).1)
  have hlast : s.tasks.getLast? = some (p, l) := by
    rw [List.getLast?_eq_getElem?, b7, hv.tasks]
    exact hl
  have hn : s.tasks.length - 1 = n := by omega
  have hn' : s'.tasks.length = n + 1 := by rw [hv'.tasks, hv1.tasks, b7]
  obtain ⟨sacts, hsr⟩ := hv.stack
  rcases C88_cancel (forRun setup r) t.job 0 sacts s s1 hsr st p l (reading_executing b2 b3 hlast) hrun (by rw [b4]; exact hsig) hstep.1 hstep.2
      sm s' (by
        intro x hx
        obtain ⟨a, ha, hs⟩ := hv'.seen x hx
        refine ⟨by rw [hn]; exact spares_seen (hm a ha).1 hs, ?_⟩
        rintro rfl
        cases hs with
        | late _ b hb => simp at hb
        | move c b hc =>
          cases c <;> simp [jobMove] at hc
          exact (hm _ ha).2 rfl) hv'.run with
    ⟨x, l', e1, e2, e3, e4, e5⟩ | ⟨l', e1, x, e2, e3, e4⟩
  · refine .inl ⟨x, l', ended_back hE' hv'.view b6 e1, e2, e3, ?_, e5⟩
    rw [← hv'.view.tasks, ← e4, List.getLast?_eq_getElem?, hn']
    rfl
  · right
    refine ⟨busy_back hE' hv'.view hn' e1, ?_⟩
    rw [hn] at e2
    obtain ⟨a, w1, w2, w3⟩ := work_back hE' hv'.view (executing_reading e1).1 e2 e4
    exact ⟨a, w1, w2 e3, w3⟩

/-- **C105** (time limit) When a job run of a busy engine is waiting for the process of its step, nothing of what the process
wrote is left to show, nobody has asked for the job to be cancelled, and time passes until the step's limit, then, whatever the
rest of the engine, its users and its runner do, and as long as the process neither writes anything nor exits: either the step
has ended Failed with code 123, and its container was told to stop, or somebody who works for the step can go on with it. -/
theorem C105_idle_timeout (setup : EngineSetup) (acts : List EngineAct) (E E1 : LocalEngine) (h : EngineReach setup acts E) (r i n : Nat)
    (t : SysTask) (ht : taskAt E.sys r i = some t) (st : Step) (t0 d : Time) (ref : Nat) (hpc : t.pc = .select st t0 d ref)
    (hn : n + 1 = (E.tasks r i).length) (p : RunPlan) (l : LocalRun) (hl : (E.tasks r i)[n]? = some (p, l)) (hrun : Running l)
    (hsig : t.sig.signal = none) (hask : (t.job.id, true) ∉ E.sys.answers) (hread : t.stream.logs.length ≤ t.stream.index)
    (hout : unreadOut l = []) (herr : unreadErr l = []) (k : Nat) (hd : d ≤ E.sys.now + k) (hc : E.step (.sys (.tick k)) = some E1)
    (more : List EngineAct) (E' : LocalEngine) (hr : runs LocalEngine.step E1 more = some E')
    (hm : ∀ a ∈ more, sparesStep r i n a = true ∧ a ≠ .sys (.cancel t.job.id) ∧ stepOutput r i n a = false)
    (hk : EngineHooksKeepJobs setup (acts ++ .sys (.tick k) :: more)) (hno : NoOther E'.sys t.job.id r i) :
    (∃ x l', StepEnded t E' r i x ∧ x.id = st.id ∧ x.state = .failed ∧ x.exitCode = some 123 ∧ (E'.tasks r i)[n]? = some (p, l') ∧
      (p.kind = .docker → l'.kills = ["docker kill " ++ p.dirs.dockerName])) ∨
    Busy E' r i n st ∧ ∃ a, stepWork r i n a = true ∧ (E'.step a).isSome = true := by
  have hb : Busy E r i n st := ⟨t, ht, by rw [hpc]; rfl, by rw [hpc]; rfl, hn⟩
  have hE1 : EngineReach setup (acts ++ [.sys (.tick k)]) E1 := runs_snoc.2 ⟨_, h, hc⟩
  have hE' : EngineReach setup ((acts ++ [.sys (.tick k)]) ++ more) E' := by
    unfold EngineReach at hE1 ⊢
    rw [runs_append, hE1]; exact hr
  have hk1 : EngineHooksKeepJobs setup ((acts ++ [.sys (.tick k)]) ++ more) := by simpa using hk
  have hno1 := (engine_keeps_runs hE1 hr (j := t.job.id) (r := r) (i := i)).1 hno
  have hno0 := (engine_keeps h hc (j := t.job.id) (r := r) (i := i)).1 hno1
  obtain ⟨t1, ht1, hj1⟩ := (engine_keeps h hc (j := t.job.id) (r := r) (i := i)).2 t ht
  obtain ⟨t', ht', hj'⟩ := (engine_keeps_runs hE1 hr (j := t.job.id) (r := r) (i := i)).2 t1 ht1
  obtain ⟨s, lag, hv⟩ := view_reach h (keepJobs_prefix (keepJobs_prefix hk1)) hno0 (fun u hu => by rw [ht] at hu; cases hu; rfl)
  obtain ⟨rfl, b2, b3, b4, b5, b6, b7⟩ := view_busy h hv ht hb
  have hspc : s.eng.pc = .select st t0 d := by
    obtain ⟨sa, sl, ja, _, _, h7⟩ := hv.sys
    have hph := h7.phase
    rw [ht] at hph
    generalize hta : some t = ot at hph
    generalize s.eng = m at hph b2 ⊢
    cases hph with
    | unborn => cases hta
    | init => cases b2
    | running t' ref' c hj hp => cases hta; simp [SysTask.toJobM, hpc, SysPc.toJobPc]
    | over t' hj hp => cases hta; rw [hpc] at hp; exact hp.elim
  obtain ⟨sc, s1, hv1, hshort⟩ := stay_one (n := n) h (keepJobs_prefix hk1) hc hno1
    (fun u hu => by rw [ht1] at hu; cases hu; exact hj1) hv (.inl b2) ⟨by simp, by simp⟩
  have hclock : s1.eng.now = s.eng.now + k := by
    rw [view_clock hv1.view, view_clock hv]
    simp only [LocalEngine.step, SysAct.byRunner, Sys.step, Bool.false_eq_true, if_false, Option.map_some, Option.some.injEq] at hc
    rw [← hc]
  have hstep : s.step (.eng (.tick k)) = some s1 := by
    have one : ∀ j, s.step (.eng (.tick j)) = some { s with eng := { s.eng with now := s.eng.now + j } } := by
      intro j
      have := shared_same hv.inv
      simp only [sharedTasks] at this
      simp only [LocalStack.step, JobAct.byRunner, JobM.step, Bool.false_eq_true, if_false, Option.map_some, this]
    have hlen := hshort _ rfl b2
    rcases short_run hlen hv1.run with ⟨_, e⟩ | ⟨y, e1, e2⟩
    · have hk0 : k = 0 := by
        rw [e] at hclock
        have : ∀ a b : Nat, a = a + b → b = 0 := by intro a b h; omega
        exact this _ _ hclock
      rw [hk0, one, e]
      rfl
    · obtain ⟨a, ha, hs⟩ := hv1.seen y (by simp [e1])
      simp only [List.mem_singleton] at ha
      subst ha
      cases hs with
      | tick _ j _ =>
        have e3 := e2
        rw [one] at e3
        simp only [Option.some.injEq] at e3
        have hj : j = k := by
          rw [← e3] at hclock
          have : ∀ a b c : Nat, a + b = a + c → b = c := by intro a b c h; omega
          exact this _ _ _ hclock
        rw [← hj]; exact e2
      | late _ b hb => simp at hb
  obtain ⟨sm, s', hv'⟩ := stay_many (n := n) hE1 hk1 hr hno (fun u hu => by rw [ht'] at hu; cases hu; exact hj'.trans hj1) hv1.view hv1.stay
    (fun a ha => spares_remains (hm a ha).1)
  have hlast : s.tasks.getLast? = some (p, l) := by
    rw [List.getLast?_eq_getElem?, b7, hv.tasks]
    exact hl
  have hn0 : s.tasks.length - 1 = n := by omega
  have hn' : s'.tasks.length = n + 1 := by rw [hv'.tasks, hv1.tasks, b7]
  have hjs : ∀ js, s.eng.jobSig = some js → js.signal = none ∨ js.isNotified = true := by
    intro js hjs
    obtain ⟨sa, sl, ja, _, _, h7⟩ := hv.sys
    obtain ⟨_, _, hsl, _⟩ := allInv_run h7.reach
    refine .inl ((hsl.reg js hjs).2.2.2.1.2 ?_)
    rw [view_answers hv, answersFor]
    intro hmem
    obtain ⟨⟨q1, q2⟩, q3, rfl⟩ := List.mem_map.1 hmem
    simp only [List.mem_filter, decide_eq_true_eq] at q3
    obtain ⟨q3, rfl⟩ := q3
    exact hask q3
  obtain ⟨sacts, hsr⟩ := hv.stack
  rcases C89_idle_timeout (forRun setup r) t.job 0 sacts s s1 hsr st p l t0 d hspc hlast hrun (by rw [b4]; exact hsig) hjs
      (by rw [b5]; exact hread) hout herr k (by rw [view_clock hv]; exact hd) hstep sm s' (by
        intro x hx
        obtain ⟨a, ha, hs⟩ := hv'.seen x hx
        refine ⟨by rw [hn0]; exact spares_seen (hm a ha).1 hs, ?_, ?_⟩
        · rintro rfl
          cases hs with
          | cancel => exact (hm _ ha).2.1 rfl
          | late _ b hb => simp at hb
          | move c b hc => cases c <;> simp [jobMove] at hc
        · have h3 := (hm a ha).2.2
          rw [hn0]
          cases hs with
          | loc m c => cases c <;> simp_all [stepOutput, isOutput]
          | _ => rfl) hv'.run with
    ⟨x, l', e1, e2, e3, e3', e4, e5⟩ | ⟨l', e1, x, e2, e4⟩
  · refine .inl ⟨x, l', ended_back hE' hv'.view b6 e1, e2, e3, e3', ?_, e5⟩
    rw [← hv'.view.tasks, ← e4, List.getLast?_eq_getElem?, hn']
    rfl
  · right
    refine ⟨busy_back hE' hv'.view hn' e1, ?_⟩
    rw [hn0] at e2
    obtain ⟨a, w1, _, w3⟩ := work_back hE' hv'.view (executing_reading e1).1 e2 e4
    exact ⟨a, w1, w3⟩

/-! ## A step's work is bounded -/

/-- What a job run still has to announce before it goes on. -/
def owed : SysPc → Nat
  | .emitting es _ => es.length + 1
  | _ => 0

theorem owed_own {g g' : SigMgr} {ρ ρ' : SysRun} {now : Time} {i : Nat} {t t' : SysTask} {c : TaskAct}
    (hs : Sys.taskStep g ρ now i t c = some (g', ρ')) (ht : ρ.tasks[i]? = some t) (ht' : ρ'.tasks[i]? = some t') (hc : isReading c = true)
    (hf : ∀ es k, t.pc = .emitting es k → k.afterEmit = true) :
    (c = .emit ∧ owed t'.pc + 1 = owed t.pc) ∨ (c ≠ .emit ∧ owed t'.pc ≤ 3) := by
  have hi := (List.getElem?_eq_some_iff.1 ht).1
  cases c <;> simp only [isReading, reduceCtorEq] at hc
  case emit =>
    left
    refine ⟨rfl, ?_⟩
    simp only [Sys.taskStep] at hs
    split at hs
    · rename_i k hpc
      simp only [Option.some.injEq, Prod.mk.injEq] at hs
      obtain ⟨_, rfl⟩ := hs
      simp [SysRun.setTask, hi] at ht'
      subst ht'
      have := hf [] k hpc
      rw [hpc]
      cases k <;> simp [SysPc.afterEmit] at this <;> rfl
    · rename_i e es k hpc
      simp only [Option.some.injEq, Prod.mk.injEq] at hs
      obtain ⟨_, rfl⟩ := hs
      simp [SysRun.setTask, SysRun.emit, hi] at ht'
      subst ht'
      rw [hpc]
      rfl
    · simp at hs
  case jobSignal =>
    right
    refine ⟨by simp, ?_⟩
    simp only [Sys.taskStep] at hs
    repeat' (split at hs)
    all_goals simp only [Option.some.injEq, Prod.mk.injEq, reduceCtorEq] at hs
    obtain ⟨_, rfl⟩ := hs
    simp [SysRun.setTask, hi] at ht'
    subst ht'
    simp [owed]
  all_goals
    right
    refine ⟨by simp, ?_⟩
    simp only [Sys.taskStep, Option.map_eq_some_iff, Prod.mk.injEq] at hs
    obtain ⟨t1, h1, _, rfl⟩ := hs
    simp [SysRun.setTask, hi] at ht'
    subst ht'
    simp only [SysTask.step] at h1
    repeat' (split at h1)
    all_goals simp only [Option.some.injEq, reduceCtorEq] at h1
    all_goals (subst h1; simp [owed, SysTask.emitThen, SysTask.stepDone])

theorem place_other {M M' : Sys} {b : SysAct} (hs : M.step b = some M') {r i : Nat} (hne : ∀ c, b ≠ .task r i c) {t : SysTask}
    (ht : taskAt M r i = some t) : taskAt M' r i = some t := by
  by_cases hn : ∀ n k c, b ≠ .task n k c
  · rcases taskAt_main hs hn r i with he | ⟨he, _⟩
    · rw [he]; exact ht
    · rw [ht] at he; cases he
  · have : ∃ n k c, b = .task n k c := by
      cases b with
      | task n k c => exact ⟨n, k, c, rfl⟩
      | _ => exact absurd (by simp) hn
    obtain ⟨n, k, c, rfl⟩ := this
    rcases sys_step_cases hs with ⟨wf, h1, _⟩ | ⟨_, _, ρ₁, ρ₂, h1, _⟩ |
      ⟨_, _, _, ρ₁, u, g', ρ₂, h1, hρ, hu, hmm, rfl⟩ | ⟨n, h1, _⟩ | ⟨j, x, h1, _⟩
    all_goals cases h1
    obtain ⟨t', h1, _⟩ := taskStep_frame hmm
    rw [taskAt_set_ne hρ h1 (by rintro ⟨rfl, rfl⟩; exact hne c rfl)]
    exact ht

theorem owed_step {setup : EngineSetup} {acts : List EngineAct} {E E' : LocalEngine} {a : EngineAct} (hE : EngineReach setup acts E)
    (hs : E.step a = some E') {r i n : Nat} {j : JobId} {t : SysTask} (ht : taskAt E.sys r i = some t)
    (ha : stepWork r i n a = true ∨ stepElsewhere r i n j a = true) :
    ∃ t', taskAt E'.sys r i = some t' ∧
      owed t'.pc + (if stepWork r i n a && isEmit a then 1 else 0) ≤ owed t.pc + 3 * (if stepDeed r i n a then 1 else 0) := by
  cases a with
  | sys b =>
    simp only [LocalEngine.step] at hs
    split at hs
    · simp at hs
    simp only [Option.map_eq_some_iff] at hs
    obtain ⟨M, hM, rfl⟩ := hs
    by_cases hown : ∃ c, b = .task r i c
    · obtain ⟨c, rfl⟩ := hown
      rcases sys_step_cases hM with ⟨wf, h1, _⟩ | ⟨_, _, ρ₁, ρ₂, h1, _⟩ |
        ⟨_, _, _, ρ₁, u, g', ρ₂, h1, hρ, hu, hmm, rfl⟩ | ⟨n, h1, _⟩ | ⟨j, x, h1, _⟩
      all_goals cases h1
      have : u = t := by
        simp [taskAt, hρ, hu] at ht
        exact ht
      subst this
      obtain ⟨t', e1, _⟩ := taskStep_frame hmm
      have hi := (List.getElem?_eq_some_iff.1 hu).1
      have ht' : ρ₂.tasks[i]? = some t' := by rw [e1]; simp [hi]
      refine ⟨t', by simp [taskAt, (List.getElem?_eq_some_iff.1 hρ).1, ht'], ?_⟩
      have hc : isReading c = true := by
        rcases ha with ha | ha
        · simpa [stepWork] using ha
        · simp [stepElsewhere] at ha
      have hw : stepWork r i n (.sys (.task r i c)) = true := by simp [stepWork, hc]
      rcases owed_own hmm hu ht' hc (form_reach hE ht) with ⟨rfl, h2⟩ | ⟨h1, h2⟩
      · simp only [hw, isEmit, Bool.and_self, if_true, stepDeed, Bool.not_true, Bool.and_false, Bool.false_eq_true, if_false]
        omega
      · have he : isEmit (.sys (.task r i c)) = false := by cases c <;> first | rfl | exact absurd rfl h1
        simp only [hw, he, stepDeed, Bool.not_false, Bool.and_self, if_true, Bool.and_false, Bool.false_eq_true, if_false]
        omega
    · refine ⟨t, place_other hM (fun c e => hown ⟨c, e⟩) ht, ?_⟩
      have : stepWork r i n (.sys b) = false := by
        cases b with
        | task r' i' c =>
          simp only [stepWork]
          by_cases h : r' = r ∧ i' = i
          · obtain ⟨rfl, rfl⟩ := h
            exact absurd ⟨c, rfl⟩ hown
          · have : (r' == r && i' == i) = false := by simpa using h
            simp [this]
        | _ => rfl
      simp [this, stepDeed]
  | spawned r0 i0 past envs =>
    simp only [LocalEngine.step] at hs
    split at hs
    · simp only [Option.map_eq_some_iff] at hs
      obtain ⟨M, hM, rfl⟩ := hs
      have hne : ∀ c, SysAct.task r0 i0 .accept ≠ .task r i c := by
        rintro c e
        cases e
        rcases ha with ha | ha
        · simp [stepWork] at ha
        · simp [stepElsewhere] at ha
      exact ⟨t, place_other hM hne ht, by simp [stepDeed, stepWork]⟩
    · simp at hs
  | loc r0 i0 k c =>
    have key : ∃ t', taskAt E'.sys r i = some t' ∧ t'.pc = t.pc := by
      simp only [LocalEngine.step] at hs
      split at hs
      · simp at hs
      · rename_i c _ _ p l hget hne
        simp only [Option.map_eq_some_iff] at hs
        obtain ⟨l', hl, rfl⟩ := hs
        simp only
        cases hu : E.sys.jobTask r0 i0 with
        | none => exact ⟨t, ht, rfl⟩
        | some u =>
          simp only [Option.map_some]
          split
          · rename_i hc
            simp only [Bool.and_eq_true] at hc
            obtain ⟨ρ, hρ, htt⟩ := taskAt_some (show taskAt E.sys r0 i0 = some u from hu)
            rcases sys_absorb hρ htt hc.1 hl with ⟨e1, _, _⟩ | ⟨b', st, _, _, e3, _⟩
            · rw [e1]; exact ⟨t, ht, rfl⟩
            · rw [e3]
              by_cases hri : r = r0 ∧ i = i0
              · obtain ⟨rfl, rfl⟩ := hri
                have : u = t := by
                  rw [jobTask_eq, ht] at hu
                  exact (Option.some.inj hu).symm
                subst this
                exact ⟨{ u with stream := st }, by simp [taskAt, (List.getElem?_eq_some_iff.1 hρ).1, SysRun.setTask, (List.getElem?_eq_some_iff.1 htt).1], rfl⟩
              · exact ⟨t, by rw [taskAt_set_ne (g := E.sys.mgr) hρ rfl hri]; exact ht, rfl⟩
          · exact ⟨t, ht, rfl⟩
      · simp at hs
    obtain ⟨t', h1, h2⟩ := key
    refine ⟨t', h1, ?_⟩
    rw [h2]
    simp [isEmit]

theorem owed_runs {setup : EngineSetup} {acts more : List EngineAct} {E E' : LocalEngine} (hE : EngineReach setup acts E)
    (hs : runs LocalEngine.step E more = some E') {r i n : Nat} {j : JobId} {t : SysTask} (ht : taskAt E.sys r i = some t)
    (ha : ∀ a ∈ more, stepWork r i n a = true ∨ stepElsewhere r i n j a = true) :
    (more.filter (fun a => stepWork r i n a && isEmit a)).length ≤ owed t.pc + 3 * (more.filter (stepDeed r i n)).length := by
  induction more generalizing E acts t with
  | nil => simp
  | cons a more ih =>
    simp only [runs] at hs
    cases h1 : E.step a with
    | none => simp [h1] at hs
    | some E1 =>
      rw [h1] at hs
      obtain ⟨t1, e1, e2⟩ := owed_step hE h1 ht (ha a (by simp))
      have := ih (runs_snoc.2 ⟨_, hE, h1⟩) hs e1 (fun b hb => ha b (by simp [hb]))
      simp only [List.filter_cons]
      split <;> split <;> simp_all <;> omega

theorem work_split (r i n : Nat) (more : List EngineAct) :
    (more.filter (stepWork r i n)).length =
      (more.filter (stepDeed r i n)).length + (more.filter (fun a => stepWork r i n a && isEmit a)).length := by
  induction more with
  | nil => rfl
  | cons a more ih =>
    rcases Bool.eq_false_or_eq_true (stepWork r i n a) with h1 | h1 <;> rcases Bool.eq_false_or_eq_true (isEmit a) with h2 | h2 <;>
      simp [List.filter_cons, stepDeed, h1, h2, ih] <;> omega

/-- **C105** (it ends) While a job run of a busy engine executes a step (with a time limit), only so many moves can be made for the step,
however much everyone else does meanwhile, as long as its process does nothing more, no time passes and nobody calls
`cancel_job` for it: it cannot go on forever. (No other job run has this job.) -/
theorem C105_bounded (setup : EngineSetup) (acts : List EngineAct) (E : LocalEngine) (h : EngineReach setup acts E) (r i n : Nat)
    (t : SysTask) (ht : taskAt E.sys r i = some t) (st : Step) (hb : Busy E r i n st) (hlim : 0 < st.timeout) :
    ∃ N, ∀ more E', (∀ a ∈ more, stepWork r i n a = true ∨ stepElsewhere r i n t.job.id a = true) →
      runs LocalEngine.step E more = some E' → EngineHooksKeepJobs setup (acts ++ more) → NoOther E'.sys t.job.id r i →
      (more.filter (stepWork r i n)).length ≤ N := by
  by_cases hno : NoOther E.sys t.job.id r i ∧ EngineHooksKeepJobs setup acts
  · obtain ⟨s, lag, hv⟩ := view_reach h hno.2 hno.1 (fun u hu => by rw [ht] at hu; cases hu; rfl)
    obtain ⟨rfl, b2, b3, b4, b5, b6, b7⟩ := view_busy h hv ht hb
    obtain ⟨_, _, _, _, h4⟩ := hb
    obtain ⟨sacts, hsr⟩ := hv.stack
    have hlast : ∃ p l, s.tasks.getLast? = some (p, l) := by
      rw [List.getLast?_eq_getElem?, b7]
      have : n < s.tasks.length := by omega
      exact ⟨s.tasks[n].1, s.tasks[n].2, by simp [this]⟩
    obtain ⟨p, l, hl⟩ := hlast
    have hn0 : s.tasks.length - 1 = n := by omega
    obtain ⟨N, hN⟩ := C87_bounded (forRun setup r) t.job 0 sacts s hsr st p l (reading_executing b2 b3 hl) hlim
    rw [hn0] at hN
    refine ⟨N + (owed t.pc + 3 * N), fun more E' hm hr hk hno' => ?_⟩
    obtain ⟨t', ht', hj'⟩ := (engine_keeps_runs h hr (j := t.job.id) (r := r) (i := i)).2 t ht
    have hrem : ∀ a ∈ more, Remains r i a := by
      intro a ha
      rcases hm a ha with h | h
      · constructor
        · rintro b st rfl; simp [stepWork, isReading] at h
        · rintro rfl; simp [stepWork, isReading] at h
      · constructor
        · rintro b st rfl; simp [stepElsewhere] at h
        · rintro rfl; simp [stepElsewhere] at h
    obtain ⟨sm, s', hv'⟩ := stay_many (n := n) h hk hr hno' (fun u hu => by rw [ht'] at hu; cases hu; exact hj') hv (.inl b2) hrem
    have hun : Undisturbed n sm := by
      intro x hx
      obtain ⟨a, ha, hs⟩ := hv'.seen x hx
      have hma := hm a ha
      cases hs with
      | tick _ k hk =>
        rcases hk with hk | ⟨k', rfl⟩
        · exact absurd rfl hk
        · simp [stepWork, stepElsewhere] at hma
      | cancel => simp [stepWork, stepElsewhere] at hma
      | late _ b hb => simp at hb
      | move c b hc =>
        left
        have : isReading c = true := by simpa [stepWork, stepElsewhere] using hma
        cases c <;> simp only [isReading, reduceCtorEq] at this <;> simp [jobMove] at hc <;> subst hc <;> rfl
      | spawned past envs => simp [stepWork, stepElsewhere] at hma
      | loc m c =>
        by_cases hmn : m = n
        · left
          subst hmn
          simpa [stepWork, stepElsewhere, isWork] using hma
        · right
          simpa [isElsewhere] using hmn
      | others r' i' past envs mem => exact .inr rfl
    have h1 := hN sm s' hun hv'.run
    have h2 := hv'.work
    have h3 := owed_runs h hr ht hm
    rw [work_split]
    omega
  · refine ⟨0, fun more E' hm hr hk hno' => absurd ⟨?_, keepJobs_prefix hk⟩ hno⟩
    exact (engine_keeps_runs h hr (j := t.job.id) (r := r) (i := i)).1 hno'

theorem view_many {setup : EngineSetup} {acts more : List EngineAct} {E E' : LocalEngine} {r i : Nat} {job : Job} {s : LocalStack}
    {lag : List JobAct} (hE : EngineReach setup acts E) (hk : EngineHooksKeepJobs setup (acts ++ more)) (hr : runs LocalEngine.step E more = some E')
    (hno : NoOther E'.sys job.id r i) (hjob : ∀ t, taskAt E'.sys r i = some t → t.job = job) (h : StackView setup E r i job s lag) :
    ∃ sacts s' lag', runs LocalStack.step s sacts = some s' ∧ StackView setup E' r i job s' lag' := by
  induction more generalizing E acts s lag with
  | nil =>
    simp only [runs, Option.some.injEq] at hr
    subst hr
    exact ⟨[], s, lag, rfl, h⟩
  | cons a more ih =>
    simp only [runs] at hr
    cases h1 : E.step a with
    | none => simp [h1] at hr
    | some E1 =>
      rw [h1] at hr
      have hE1 : EngineReach setup (acts ++ [a]) E1 := runs_snoc.2 ⟨_, hE, h1⟩
      have hk' : EngineHooksKeepJobs setup ((acts ++ [a]) ++ more) := by simpa using hk
      obtain ⟨k1, k2⟩ := engine_keeps_runs hE1 hr (j := job.id) (r := r) (i := i)
      obtain ⟨sa1, s1, lag1, hv1⟩ := view_step hE (keepJobs_prefix hk') h1 (k1 hno) (fun t ht => by
        obtain ⟨t', e1, e2⟩ := k2 t ht
        rw [← e2]; exact hjob t' e1) h
      obtain ⟨sa2, s2, lag2, e1, e2⟩ := ih hE1 hk' hr hv1.view
      refine ⟨sa1 ++ sa2, s2, lag2, ?_, e2⟩
      rw [runs_append, hv1.run]
      exact e1

/-- **C105** (the job) Once a step of a job run of a busy engine has ended Cancelled, the job ends Cancelled, with that step's result in its
result, and no later step is executed, whatever happens. -/
theorem C105_job (setup : EngineSetup) (acts : List EngineAct) (E E' : LocalEngine) (h : EngineReach setup acts E) (r i : Nat)
    (t : SysTask) (x : StepRunResult) (hend : StepEnded t E r i x) (hc : x.state = .cancelled) (more : List EngineAct)
    (hr : runs LocalEngine.step E more = some E') (t' : SysTask) (ht' : taskAt E'.sys r i = some t') (jr : JobRunResult)
    (ha : SysTask.answer t' = some jr) (hk : EngineHooksKeepJobs setup (acts ++ more)) (hno : NoOther E'.sys t'.job.id r i) :
    jr.state = .cancelled ∧ ∃ m, jr.steps[m]? = some x ∧
      ∀ (m' : Nat) (y : StepRunResult), m < m' → jr.steps[m']? = some y → y.state = .skipped := by
  obtain ⟨k1, k2⟩ := engine_keeps_runs h hr (j := t'.job.id) (r := r) (i := i)
  obtain ⟨t1, ht1, hres, hpc⟩ := hend
  obtain ⟨t2, ht2, hj⟩ := k2 t1 ht1
  rw [ht'] at ht2
  cases ht2
  obtain ⟨s, lag, hv⟩ := view_reach h (keepJobs_prefix hk) (k1 hno) (fun u hu => by rw [ht1] at hu; cases hu; exact hj.symm)
  obtain ⟨sa, s', lag', hrun, hv'⟩ := view_many h hk hr hno (fun u hu => by rw [ht'] at hu; cases hu; rfl) hv
  obtain ⟨sacts, hsr⟩ := hv.stack
  have hs : s.eng.pc = .next ∧ s.eng.acc.results = t1.results ∨ s.eng.pc = .init := by
    obtain ⟨_, sl, ja, _, _, h7⟩ := hv.sys
    have hph := h7.phase
    rw [ht1] at hph
    generalize hot : some t1 = ot at hph
    generalize t'.job = job at hph
    generalize s.eng = m at hph
    cases hph with
    | unborn => cases hot
    | init => exact .inr rfl
    | starting => exact .inr rfl
    | running u ref c hj hp =>
      cases hot
      left
      refine ⟨?_, rfl⟩
      rcases hpc with hpc | ⟨es, hpc⟩ <;> simp [SysTask.toJobM, hpc, SysPc.toJobPc]
    | finishing u ref c es E0 tf hj hr hp hes hE0 hn => cases hot; exact .inl ⟨rfl, rfl⟩
    | over u hj hp =>
      cases hot
      rcases hpc with hpc | ⟨es, hpc⟩ <;> rw [hpc] at hp <;> first | exact hp.elim | exact hp.2.elim
  have hs' : s'.eng.pc = .finished jr := by
    obtain ⟨_, sl, ja, _, _, h7⟩ := hv'.sys
    have hph := h7.phase
    rw [ht'] at hph
    have hpc' : t'.pc = .finished jr ∨ t'.pc = .sent jr := by
      unfold SysTask.answer at ha
      split at ha
      · rename_i r' e; cases ha; exact .inl e
      · rename_i r' e; cases ha; exact .inr e
      · cases ha
    generalize hot : some t' = ot at hph
    generalize t'.job = job at hph
    generalize s'.eng = m at hph
    cases hph with
    | unborn => cases hot
    | init => cases hot; rcases hpc' with e | e <;> cases e
    | starting => cases hot; rcases hpc' with e | e <;> cases e
    | running u ref c hj hp =>
      cases hot
      rcases hpc' with e | e <;> rw [e] at hp <;> exact hp.elim
    | finishing u ref c es E0 tf hj hr hp hes hE0 hn =>
      cases hot
      rcases hpc' with e | e <;> rw [e] at hp <;> cases hp
    | over u hj hp =>
      cases hot
      rcases hpc' with e | e <;> simp [SysTask.toJobM, e, SysPc.toJobPc]
  rcases hs with ⟨h1, h2⟩ | h1
  · exact C88_job (forRun setup r) t'.job 0 sacts { s with eng := { s.eng with acc := { s.eng.acc with results := t.results } } } s s' hsr x
      ⟨h1, by rw [h2, hres]⟩ hc sa hrun jr hs'
  · exfalso
    obtain ⟨_, sl, ja, _, _, h7⟩ := hv.sys
    have hph := h7.phase
    rw [ht1] at hph
    have : t1.results = [] := by
      generalize hot : some t1 = ot at hph
      generalize t'.job = job at hph
      generalize s.eng = m at hph h1
      cases hph with
      | unborn => cases hot
      | init => cases hot; rfl
      | starting => cases hot; rfl
      | running u ref c hj hp =>
        cases hot
        rcases hpc with hpc | ⟨es, hpc⟩ <;> simp [SysTask.toJobM, hpc, SysPc.toJobPc] at h1
      | finishing u ref c es E0 tf hj hr hp hes hE0 hn => cases h1
      | over u hj hp =>
        cases hot
        rcases hpc with hpc | ⟨es, hpc⟩ <;> rw [hpc] at hp <;> first | exact hp.elim | exact hp.2.elim
    rw [hres] at this
    simp at this

/-! ## Concrete cases -/

namespace EngineEx
/-- Two containers run; the job of the first workflow is to be cancelled. -/
def mid : List EngineAct := head ++ begin 0 0 ++ begin 1 0 ++ talk 1 0

/-- The first one is cancelled, while the second one goes on. -/
def cancelled : List EngineAct :=
  [.loc 1 0 0 (.childOut "b"), .sys (.task 0 0 .jobSignal), .loc 0 0 0 .sigReady, .loc 1 0 0 .readOut, .sys (.task 0 0 .enter),
    .sys (.task 1 0 .recv), .loc 0 0 0 .killDone, .sys (.task 0 0 .recv)]

/-- The first one reaches its time limit, while the second one goes on. -/
def expired : List EngineAct :=
  [.loc 1 0 0 (.childOut "b"), .sys (.task 0 0 .timer), .loc 0 0 0 .sigReady, .loc 1 0 0 .readOut, .sys (.task 0 0 .enter),
    .sys (.task 1 0 .recv), .loc 0 0 0 .killDone, .sys (.task 0 0 .recv)]
end EngineEx

theorem EngineEx.first_only {acts : List SysAct} {M : Sys} {j : JobId} (h : SysReach acts M)
    (ha : (M.runs.map fun ρ => ρ.tasks.map fun t => decide (Event.runJob j ∈ t.evs)) = [[true], [false]]) : NoOther M j 0 0 := by
  intro r i hx
  obtain ⟨ρ, t, h1, h2, h3⟩ := announced_evs h hx
  have h4 := congrArg (fun l => l[r]?) ha
  simp only [List.getElem?_map, h1, Option.map_some] at h4
  match r with
  | 0 =>
    have h5 := congrArg (fun l => l[i]?) (Option.some.inj h4)
    simp only [List.getElem?_map, h2, Option.map_some, h3, decide_true] at h5
    match i with
    | 0 => exact ⟨rfl, rfl⟩
    | n + 1 => simp at h5
  | 1 =>
    have h5 := congrArg (fun l => l[i]?) (Option.some.inj h4)
    simp only [List.getElem?_map, h2, Option.map_some, h3, decide_true] at h5
    match i with
    | 0 => simp at h5
    | n + 1 => simp at h5
  | n + 2 => simp at h4

theorem EngineEx.first_alone {acts : List EngineAct} {E : LocalEngine} (h : EngineReach EngineEx.setup acts E)
    (hk : EngineHooksKeepJobs EngineEx.setup acts)
    (ha : (E.sys.runs.map fun ρ => ρ.tasks.map fun t => decide (Event.runJob ⟨"v", "a"⟩ ∈ t.evs)) = [[true], [false]]) :
    NoOther E.sys ⟨"v", "a"⟩ 0 0 := by
  obtain ⟨sa, h1, _⟩ := engine_sys h hk
  exact EngineEx.first_only h1 ha

theorem EngineEx.apart_of {acts : List EngineAct} (h1 : started (engineMoves acts) = [SystemEx.single "v", SystemEx.single "w"])
    (h2 : ∀ r i b s, SysAct.task r i (.nextStep b s) ∈ engineMoves acts →
      (r = 0 ∧ s = SystemEx.step "v") ∨ (r = 1 ∧ s = SystemEx.step "w")) :
    Apart (engineMoves acts) ∧ EngineHooksKeepJobs EngineEx.setup acts := by
  have hap : Apart (engineMoves acts) := by
    refine ⟨by rw [h1]; decide, ?_, ?_⟩
    · intro wf hwf k j hj
      rw [h1] at hwf
      simp only [List.mem_cons, List.not_mem_nil, or_false] at hwf
      rcases hwf with rfl | rfl <;> simp [SystemEx.single] at hj <;> obtain ⟨rfl, rfl⟩ := hj <;> rfl
    · intro r i b s hm wf hwf
      rw [h1] at hwf
      rcases h2 r i b s hm with ⟨rfl, rfl⟩ | ⟨rfl, rfl⟩ <;> cases hwf <;> rfl
  refine ⟨hap, engineHooks_of hap ?_⟩
  intro r i b s hm wf hwf k j hj
  rw [h1] at hwf
  rcases h2 r i b s hm with ⟨rfl, rfl⟩ | ⟨rfl, rfl⟩ <;> cases hwf <;> simp [SystemEx.single] at hj <;>
    obtain ⟨rfl, rfl⟩ := hj <;> rfl

theorem EngineEx.keeps_cancelled : EngineHooksKeepJobs EngineEx.setup (EngineEx.mid ++ .sys (.cancel ⟨"v", "a"⟩) :: EngineEx.cancelled) := by
  refine (EngineEx.apart_of rfl ?_).2
  intro r i b s hm
  simp [EngineEx.mid, EngineEx.cancelled, engineMoves, EngineEx.head, EngineEx.begin, EngineEx.talk, SystemEx.open', SystemEx.queue] at hm
  rcases hm with ⟨rfl, rfl, rfl, rfl⟩ | ⟨rfl, rfl, rfl, rfl⟩ <;> simp

theorem EngineEx.keeps_expired : EngineHooksKeepJobs EngineEx.setup (EngineEx.mid ++ .sys (.tick 10000) :: EngineEx.expired) := by
  refine (EngineEx.apart_of rfl ?_).2
  intro r i b s hm
  simp [EngineEx.mid, EngineEx.expired, engineMoves, EngineEx.head, EngineEx.begin, EngineEx.talk, SystemEx.open', SystemEx.queue] at hm
  rcases hm with ⟨rfl, rfl, rfl, rfl⟩ | ⟨rfl, rfl, rfl, rfl⟩ <;> simp

theorem EngineEx.cancelled_ran : runs LocalEngine.step (EngineEx.after (EngineEx.mid ++ [.sys (.cancel ⟨"v", "a"⟩)])) EngineEx.cancelled =
    some (EngineEx.after (EngineEx.mid ++ .sys (.cancel ⟨"v", "a"⟩) :: EngineEx.cancelled)) := rfl

theorem EngineEx.expired_ran : runs LocalEngine.step (EngineEx.after (EngineEx.mid ++ [.sys (.tick 10000)])) EngineEx.expired =
    some (EngineEx.after (EngineEx.mid ++ .sys (.tick 10000) :: EngineEx.expired)) := rfl

theorem EngineEx.cancelled_alone :
    NoOther (EngineEx.after (EngineEx.mid ++ .sys (.cancel ⟨"v", "a"⟩) :: EngineEx.cancelled)).sys ⟨"v", "a"⟩ 0 0 :=
  EngineEx.first_alone (acts := EngineEx.mid ++ .sys (.cancel ⟨"v", "a"⟩) :: EngineEx.cancelled) rfl EngineEx.keeps_cancelled
    (by decide +kernel)

theorem EngineEx.expired_alone :
    NoOther (EngineEx.after (EngineEx.mid ++ .sys (.tick 10000) :: EngineEx.expired)).sys ⟨"v", "a"⟩ 0 0 :=
  EngineEx.first_alone (acts := EngineEx.mid ++ .sys (.tick 10000) :: EngineEx.expired) rfl EngineEx.keeps_expired
    (by decide +kernel)

/-- The hypotheses of `C105_cancel` are met, while another workflow's container is busy; the step ends Cancelled. -/
example : ∃ t p l x, EngineReach EngineEx.setup EngineEx.mid (EngineEx.after EngineEx.mid) ∧ taskAt (EngineEx.after EngineEx.mid).sys 0 0 = some t ∧
    t.job.id = ⟨"v", "a"⟩ ∧ Busy (EngineEx.after EngineEx.mid) 0 0 0 (SystemEx.step "v") ∧
    ((EngineEx.after EngineEx.mid).tasks 0 0)[0]? = some (p, l) ∧ Running l ∧ p.kind = .docker ∧ t.sig.signal = none ∧
    (EngineEx.after EngineEx.mid).step (.sys (.cancel ⟨"v", "a"⟩)) = some (EngineEx.after (EngineEx.mid ++ [.sys (.cancel ⟨"v", "a"⟩)])) ∧
    (EngineEx.after (EngineEx.mid ++ [.sys (.cancel ⟨"v", "a"⟩)])).sys.answers = (EngineEx.after EngineEx.mid).sys.answers ++ [(⟨"v", "a"⟩, true)] ∧
    (∀ a ∈ EngineEx.cancelled, sparesStep 0 0 0 a = true ∧ a ≠ .sys (.task 0 0 .timer)) ∧
    StepEnded t (EngineEx.after (EngineEx.mid ++ .sys (.cancel ⟨"v", "a"⟩) :: EngineEx.cancelled)) 0 0 x ∧ x.state = .cancelled := by
  refine ⟨_, _, _, _, rfl, rfl, rfl, ⟨_, rfl, rfl, rfl, rfl⟩, rfl, ⟨.inl rfl, _, rfl, rfl⟩, rfl, rfl, rfl, rfl, ?_, ⟨_, rfl, rfl, .inr ⟨_, rfl⟩⟩, rfl⟩
  simp [EngineEx.cancelled, sparesStep, isFailure]

/-- The hypotheses of `C105_idle_timeout` are met, while another workflow's container is busy; the step ends Failed with 123. -/
example : ∃ t p l x st t0 d ref, EngineReach EngineEx.setup EngineEx.mid (EngineEx.after EngineEx.mid) ∧ taskAt (EngineEx.after EngineEx.mid).sys 0 0 = some t ∧
    t.pc = .select st t0 d ref ∧ 0 + 1 = ((EngineEx.after EngineEx.mid).tasks 0 0).length ∧ 0 < st.timeout ∧
    ((EngineEx.after EngineEx.mid).tasks 0 0)[0]? = some (p, l) ∧ Running l ∧ t.sig.signal = none ∧
    (t.job.id, true) ∉ (EngineEx.after EngineEx.mid).sys.answers ∧ t.stream.logs.length ≤ t.stream.index ∧ unreadOut l = [] ∧ unreadErr l = [] ∧
    d ≤ (EngineEx.after EngineEx.mid).sys.now + 10000 ∧
    (EngineEx.after EngineEx.mid).step (.sys (.tick 10000)) = some (EngineEx.after (EngineEx.mid ++ [.sys (.tick 10000)])) ∧
    (∀ a ∈ EngineEx.expired, sparesStep 0 0 0 a = true ∧ a ≠ .sys (.cancel t.job.id) ∧ stepOutput 0 0 0 a = false) ∧
    StepEnded t (EngineEx.after (EngineEx.mid ++ .sys (.tick 10000) :: EngineEx.expired)) 0 0 x ∧ x.state = .failed ∧ x.exitCode = some 123 := by
  refine ⟨_, _, _, _, _, _, _, _, rfl, rfl, rfl, rfl, by decide, rfl, ⟨.inl rfl, _, rfl, rfl⟩, rfl, by decide, by decide, rfl, rfl, by decide, rfl, ?_,
    ⟨_, rfl, rfl, .inr ⟨_, rfl⟩⟩, rfl, rfl⟩
  simp [EngineEx.expired, sparesStep, isFailure, stepOutput]

end AstroRun
