import Verif.Spec.JobMachine
import Verif.Spec.Job
import Verif.Lemmas.Job
import Verif.Lemmas.Run

namespace AstroRun
open Spec

/-- The step loop after the steps `ps`. -/
abbrev loopAcc (id : JobId) (ps : List (Step × StepEnv)) : JobAcc := ps.foldl JobAcc.step (JobAcc.start id)

theorem loopAcc_snoc (id : JobId) (ps : List (Step × StepEnv)) (p : Step × StepEnv) :
    loopAcc id (ps ++ [p]) = (loopAcc id ps).step p := by simp [loopAcc]

/-- At the top of the loop. -/
def AtNext (job : Job) (m : JobM) : Prop :=
  ∃ b ps, Matches job.on b ∧ ps.map Prod.fst ++ m.rest = job.steps ∧ m.acc = loopAcc job.id ps

/-- Inside a step, having issued `evs` for it. -/
def InStep (job : Job) (m : JobM) (evs : List Event) : Prop :=
  ∃ b ps st c, Matches job.on b ∧ ps.map Prod.fst ++ st :: m.rest = job.steps ∧
    stepSkipped (loopAcc job.id ps).state st c = false ∧
    m.acc = { loopAcc job.id ps with trace := (loopAcc job.id ps).trace ++ evs }

/-- What is known at each point of the task. -/
def PcInv (job : Job) (m : JobM) : Prop :=
  match m.pc with
  | .init => m.acc.trace = []
  | .next => AtNext job m
  | .queued s _ => InStep job m [.runStep s, .stepState s.id .queued]
  | .calling s _ => InStep job m [.runStep s, .stepState s.id .queued, .runnerRun s.toCommand] ∧ m.stream.index = 0
  | .handling s _ | .select s _ _ =>
    InStep job m ([.runStep s, .stepState s.id .queued, .runnerRun s.toCommand, .stepState s.id .inProgress] ++
      (m.stream.logs.take m.stream.index).map (.log s.id)) ∧ m.stream.index ≤ m.stream.logs.length
  | .finished r => ∃ env, jobRun env job = (m.acc.trace, r)
  | .panicked => True

theorem stepEnvs_of (job : Job) (ps : List (Step × StepEnv)) (h : ps.map Prod.fst = job.steps) (b : Bool)
    (t1 t2 : Time) :
    job.stepEnvs { condition := b, startedAt := t1, completedAt := t2,
                   step := fun i => (ps[i]?.map Prod.snd).getD {} } = ps := by
  apply List.ext_getElem
  · simp [Job.stepEnvs, ← h]
  · intro i h1 h2
    have hi : i < job.steps.length := by simpa [Job.stepEnvs] using h1
    rw [stepEnvs_getElem job _ i h1 hi]
    simp only [List.getElem?_eq_getElem h2, Option.map_some, Option.getD_some]
    have : job.steps[i] = (ps[i]).1 := by simp [← h]
    rw [this]

theorem done_inv {job : Job} {m : JobM} {evs : List Event} {e : StepEnv} {s : Step} {res : StepRunResult}
    (h : InStep job m evs)
    (hb : e.before = fun _ => s)
    (hr : ∀ st, stepRun e st = (evs ++ [.stepState res.id res.state, .stepCompleted res], res)) :
    AtNext job (m.stepDone res) := by
  obtain ⟨b, ps, st, c, h1, h2, h3, h4⟩ := h
  refine ⟨b, ps ++ [(st, { e with condition := c })], h1, by simpa [JobM.stepDone] using h2, ?_⟩
  rw [loopAcc_snoc]
  simp only [JobM.stepDone, JobAcc.step, h3, h4, Bool.false_eq_true, if_false]
  have : stepRun { e with condition := c } st = stepRun e st := rfl
  rw [this, hr st]
  simp

theorem PcInv_step {job : Job} {m m' : JobM} {a : JobAct} (hj : m.job = job) (h : PcInv job m)
    (hs : m.step a = some m') : PcInv job m' ∧ m'.job = job := by
  unfold PcInv at h
  cases a with
  | check b =>
    simp only [JobM.step] at hs
    split at hs
    · rename_i hpc
      simp only [hpc] at h
      split at hs
      · rename_i hsk
        cases hs
        refine ⟨?_, by simpa [JobM.emit] using hj⟩
        refine ⟨{ condition := b }, ?_⟩
        simp [jobRun, ← hj, hsk, JobM.emit, h]
      · rename_i hsk
        cases hs
        refine ⟨⟨b, [], ?_, ?_, ?_⟩, hj⟩
        · rw [shouldSkip_iff, hj] at hsk; exact Classical.not_not.1 hsk
        · simp [hj]
        · simp [hj]
    · simp at hs
  | nextStep b s =>
    simp only [JobM.step] at hs
    split at hs
    · rename_i st rest hpc hrest
      simp only [hpc] at h
      obtain ⟨b0, ps, h1, h2, h3⟩ := h
      split at hs
      · rename_i hsk
        cases hs
        refine ⟨?_, hj⟩
        simp only [PcInv, hpc]
        refine ⟨b0, ps ++ [(st, { condition := b })], h1, by simpa [hrest] using h2, ?_⟩
        rw [loopAcc_snoc, ← h3]
        simp [JobAcc.step, hsk]
      · rename_i hsk
        cases hs
        refine ⟨?_, by simpa [JobM.emit] using hj⟩
        refine ⟨b0, ps, st, b, h1, by simpa [hrest] using h2, ?_, ?_⟩
        · rw [← h3]; simpa using hsk
        · simp [JobM.emit, h3]
    · simp at hs
  | finishJob =>
    simp only [JobM.step] at hs
    split at hs
    · rename_i hpc hrest
      simp only [hpc] at h
      obtain ⟨b, ps, h1, h2, h3⟩ := h
      cases hs
      refine ⟨?_, hj⟩
      refine ⟨{ condition := b, startedAt := m.startedAt, completedAt := m.now,
                step := fun i => (ps[i]?.map Prod.snd).getD {} }, ?_⟩
      have hns : shouldSkip job.on b = false := by
        rw [← Bool.not_eq_true, shouldSkip_iff]; exact not_not_intro h1
      have := stepEnvs_of job ps (by simpa [hrest] using h2) b m.startedAt m.now
      simp only [jobRun, hns, this, hj, h3, Bool.false_eq_true, if_false]
    · simp at hs
  | call =>
    simp only [JobM.step] at hs
    split at hs
    · rename_i s t0 hpc
      simp only [hpc] at h
      split at hs
      · cases hs
        refine ⟨?_, by simpa [JobM.emit] using hj⟩
        obtain ⟨b, ps, st, c, h1, h2, h3, h4⟩ := h
        exact ⟨⟨b, ps, st, c, h1, h2, h3, by simp [JobM.emit, h4]⟩, rfl⟩
      · cases hs; exact ⟨trivial, hj⟩
    · simp at hs
  | refuse e =>
    simp only [JobM.step] at hs
    split at hs
    · rename_i s t0 hpc
      simp only [hpc] at h
      cases hs
      refine ⟨?_, by simpa [JobM.stepDone] using hj⟩
      exact done_inv (e := { before := fun _ => s, outcome := .refused e, startedAt := t0, completedAt := m.now })
        (s := s) h.1 rfl (fun st => by simp [stepRun, refusedResult])
    · simp at hs
  | accept =>
    simp only [JobM.step] at hs
    split at hs
    · rename_i s t0 hpc
      simp only [hpc] at h
      cases hs
      refine ⟨?_, by simpa [JobM.emit] using hj⟩
      obtain ⟨⟨b, ps, st, c, h1, h2, h3, h4⟩, h5⟩ := h
      refine ⟨⟨b, ps, st, c, h1, h2, h3, ?_⟩, ?_⟩
      · simp [JobM.emit, h4, h5]
      · simp [JobM.emit, h5]
    · simp at hs
  | enter =>
    simp only [JobM.step] at hs
    split at hs
    · rename_i s t0 hpc
      simp only [hpc] at h
      cases hs
      exact ⟨h, hj⟩
    · simp at hs
  | timer =>
    simp only [JobM.step] at hs
    split at hs
    · rename_i s t0 d hpc
      simp only [hpc] at h
      split at hs
      · cases hs; exact ⟨h, hj⟩
      · simp at hs
    · simp at hs
  | jobSignal =>
    simp only [JobM.step] at hs
    split at hs
    · rename_i s t0 d js hpc hjs
      simp only [hpc] at h
      split at hs
      · cases hs; exact ⟨h, hj⟩
      · simp at hs
    · simp at hs
  | recv =>
    simp only [JobM.step] at hs
    split at hs
    · rename_i s t0 d hpc
      simp only [hpc] at h
      split at hs
      · rename_i st' l hpoll
        cases hs
        refine ⟨?_, by simpa [JobM.emit] using hj⟩
        obtain ⟨⟨b, ps, st, c, h1, h2, h3, h4⟩, h5⟩ := h
        have hp : st'.logs = m.stream.logs ∧ st'.index = m.stream.index + 1 ∧
            m.stream.logs[m.stream.index]? = some l := by
          unfold StreamState.poll at hpoll
          split at hpoll
          · rename_i l' hl'
            simp only [Prod.mk.injEq, PollOut.item.injEq] at hpoll
            obtain ⟨rfl, rfl⟩ := hpoll
            exact ⟨rfl, rfl, hl'⟩
          · split at hpoll <;> simp at hpoll
        refine ⟨⟨b, ps, st, c, h1, h2, h3, ?_⟩, ?_⟩
        · simp only [JobM.emit, h4, hp.1, hp.2.1]
          rw [List.take_add_one, hp.2.2]
          simp
        · simp only [JobM.emit, hp.1, hp.2.1]
          have := (List.getElem?_eq_some_iff.1 hp.2.2).1
          omega
      · rename_i st' hpoll
        split at hs
        · rename_i res hres
          cases hs
          refine ⟨?_, by simpa [JobM.stepDone] using hj⟩
          have hp : m.stream.logs[m.stream.index]? = none := by
            unfold StreamState.poll at hpoll
            split at hpoll
            · simp at hpoll
            · rename_i hn; exact hn
          have hlen : m.stream.logs.length ≤ m.stream.index := by
            simpa using hp
          rw [List.take_of_length_le hlen] at h
          refine done_inv (e := { before := fun _ => s, outcome := .ended m.stream.logs res, startedAt := t0,
                                  completedAt := m.now }) (s := s) h.1 rfl (fun st => ?_)
          have hid : (stepResult s.id res t0 m.now).id = s.id := by cases res <;> rfl
          simp [stepRun, hid]
        · cases hs; exact ⟨trivial, hj⟩
      · simp at hs
    · simp at hs
  | tick n =>
    simp only [JobM.step] at hs
    cases hs
    exact ⟨h, hj⟩
  | push l =>
    simp only [JobM.step] at hs
    split at hs
    · rename_i s t0 hpc
      simp only [hpc] at h
      cases hs
      exact ⟨by simp only [PcInv, hpc]; exact h, hj⟩
    all_goals first
      | (rename_i hpc
         simp only [hpc] at h
         cases hs
         refine ⟨?_, hj⟩
         simp only [PcInv, hpc, StreamState.push]
         refine ⟨?_, by simp; omega⟩
         rw [List.take_append_of_le_length h.2]
         exact h.1)
      | simp at hs
  | endStream r =>
    have hst : ∀ st : StreamState, (st.endSeq r).1.logs = st.logs ∧ (st.endSeq r).1.index = st.index := by
      intro st
      unfold StreamState.endSeq StreamState.endWrite
      split <;> exact ⟨rfl, rfl⟩
    simp only [JobM.step] at hs
    split at hs
    · rename_i s t0 hpc
      simp only [hpc] at h
      cases hs
      exact ⟨by simp only [PcInv, hpc, (hst m.stream).2]; exact h, hj⟩
    all_goals first
      | (rename_i hpc
         simp only [hpc] at h
         cases hs
         refine ⟨?_, hj⟩
         simp only [PcInv, hpc, (hst m.stream).2, (hst m.stream).1]
         exact h)
      | simp at hs
  | cancel =>
    simp only [JobM.step] at hs
    split at hs <;> cases hs <;> exact ⟨h, hj⟩

theorem pcInv_run {job : Job} {t : Time} {acts : List JobAct} {m : JobM} (h : JobReach job t acts m) :
    PcInv job m ∧ m.job = job :=
  runs_induct (P := fun _ m => PcInv job m ∧ m.job = job) ⟨by simp [PcInv, JobM.initial], rfl⟩
    (fun _ _ _ _ _ ih hs => PcInv_step ih.2 ih.1 hs) h

/-! ## Streams, signals and time -/

theorem written_snoc (acts : List JobAct) (a : JobAct) :
    written (acts ++ [a]) = match a with | .call => [] | .push l => written acts ++ [l] | _ => written acts := by
  simp only [written, List.foldl_append, List.foldl_cons, List.foldl_nil]
  cases a <;> rfl

theorem firstEnd_snoc (acts : List JobAct) (a : JobAct) :
    firstEnd (acts ++ [a]) = match a with
      | .call => none | .endStream x => (firstEnd acts).or (some x) | _ => firstEnd acts := by
  simp only [firstEnd, List.foldl_append, List.foldl_cons, List.foldl_nil]
  cases a <;> rfl

theorem ticks_snoc (acts : List JobAct) (a : JobAct) :
    ticks (acts ++ [a]) = match a with | .tick k => ticks acts + k | _ => ticks acts := by
  simp only [ticks, List.foldl_append, List.foldl_cons, List.foldl_nil]
  cases a <;> rfl

theorem idle_snoc {acts : List JobAct} {T : Nat} {a : JobAct} (h : IdleTimeout acts T) (ha : a ≠ .call) :
    IdleTimeout (acts ++ [a]) T := by
  obtain ⟨p, q, r, h1, h2, h3, h4⟩ := h
  exact ⟨p, q, r ++ [a], by simp [h1], h2, h3, by simp [h4, Ne.symm ha]⟩

theorem set_signal (s : SigState) (v : Signal) : (s.set v).state.signal = s.signal.or (some v) := by
  unfold SigState.set; cases h : s.signal <;> simp [h]

theorem set_notified (s : SigState) (v : Signal) : (s.set v).state.isNotified = s.isNotified := by
  unfold SigState.set; cases h : s.signal <;> simp

theorem set_ok (s : SigState) (v : Signal) : (s.set v).ok = s.signal.isNone := by
  unfold SigState.set; cases h : s.signal <;> simp

theorem poll_some {s s' : SigState} {t : Nat} {v : Signal} (h : s.poll t = (s', some v)) :
    s.isNotified = false ∧ s.signal = some v ∧ s' = { s with isNotified := true } := by
  unfold SigState.poll at h
  split at h
  · simp at h
  · split at h
    · simp only [Prod.mk.injEq, Option.some.injEq] at h
      simp_all
    · simp at h

theorem spoll_item {s s' : StreamState} {t : Nat} {l : Log} (h : s.poll t = (s', .item l)) :
    s'.logs = s.logs ∧ s'.result = s.result := by
  unfold StreamState.poll at h
  split at h
  · simp only [Prod.mk.injEq] at h; obtain ⟨rfl, _⟩ := h; exact ⟨rfl, rfl⟩
  · split at h <;> simp at h

theorem endSeq_fields (s : StreamState) (r : RunResult) :
    (s.endSeq r).1.logs = s.logs ∧ (s.endSeq r).1.result = s.result.or (some r) := by
  unfold StreamState.endSeq StreamState.isEnded StreamState.endWrite
  cases h : s.result <;> simp [h]

/-- Split a move into its possible cases. -/
macro "job_cases" a:ident hs:ident : tactic => `(tactic|
  (cases $a:ident <;> simp only [JobM.step] at $hs:ident <;> (repeat' split at $hs:ident) <;>
    first
      | (exfalso; simp at $hs:ident; done)
      | cases $hs:ident))

/-- The stream of the running step holds what the runner wrote. -/
def StreamLink (acts : List JobAct) (m : JobM) : Prop :=
  ∀ s, runningStep m.pc = some s → m.stream.logs = written acts ∧ m.stream.result = firstEnd acts

theorem streamLink_step {acts : List JobAct} {a : JobAct} {m m' : JobM} (h : StreamLink acts m)
    (hs : m.step a = some m') : StreamLink (acts ++ [a]) m' := by
  unfold StreamLink at h ⊢
  intro s hr
  job_cases a hs <;> simp only [written_snoc, firstEnd_snoc, JobM.emit, JobM.stepDone, runningStep] at hr ⊢ <;>
    simp_all [runningStep, endSeq_fields, StreamState.push]
  all_goals (rename_i hp; rw [← h.1, ← h.2]; exact spoll_item hp)

/-- Where the current `select!` iteration began. -/
def SelectLink (acts : List JobAct) (m : JobM) : Prop :=
  ∀ s t0 d, m.pc = .select s t0 d → ∃ p q t, acts = p ++ .enter :: q ∧ (∀ a ∈ q, External a) ∧
    d = t + s.timeout ∧ m.now = t + ticks q

theorem selectLink_step {acts : List JobAct} {a : JobAct} {m m' : JobM} (h : SelectLink acts m)
    (hs : m.step a = some m') : SelectLink (acts ++ [a]) m' := by
  have ext : ∀ s t0 d, m.pc = .select s t0 d → m'.pc = m.pc → External a →
      m'.now = m.now + ticks [a] →
      ∃ p q t, acts ++ [a] = p ++ .enter :: q ∧ (∀ a ∈ q, External a) ∧ d = t + s.timeout ∧ m'.now = t + ticks q := by
    intro s t0 d hpc _ hE hnow
    obtain ⟨p, q, t, h1, h2, h3, h4⟩ := h s t0 d hpc
    refine ⟨p, q ++ [a], t, by simp [h1], ?_, h3, ?_⟩
    · intro x hx
      rcases List.mem_append.1 hx with hx | hx
      · exact h2 x hx
      · simp at hx; exact hx ▸ hE
    · rw [hnow, h4, ticks_snoc]
      cases a <;> simp [ticks, Nat.add_assoc]
  intro s t0 d hpc'
  by_cases hE : External a
  · have hk : m'.pc = m.pc ∧ m'.now = m.now + ticks [a] := by
      job_cases a hs <;> simp_all [External, ticks]
    exact ext s t0 d (hk.1 ▸ hpc') hk.1 hE hk.2
  · by_cases ha : a = .enter
    · subst ha
      simp only [JobM.step] at hs
      split at hs
      · cases hs
        simp only [JobPc.select.injEq] at hpc'
        obtain ⟨rfl, rfl, rfl⟩ := hpc'
        exact ⟨acts, [], m.now, rfl, by simp, rfl, by simp [ticks]⟩
      · simp at hs
    · job_cases a hs <;> simp_all [External, JobM.emit, JobM.stepDone]

/-- The job's signal in the registry. -/
structure SigLink (acts : List JobAct) (m : JobM) : Prop where
  unreg : m.jobSig = none → (m.pc = .init → JobAct.jobSignal ∉ acts ∧ true ∉ m.answers) ∧
    (m.pc = .init ∨ ∃ r, m.pc = .finished r)
  reg : ∀ js, m.jobSig = some js →
    (js.isNotified = true ↔ JobAct.jobSignal ∈ acts) ∧
    (js.isNotified = true → js.signal = some .cancel) ∧
    (js.signal = some .cancel ↔ true ∈ m.answers) ∧ (js.signal = none ↔ true ∉ m.answers) ∧
    m.pc ≠ .init ∧ (∀ r, m.pc ≠ .finished r)
  once : acts.count .jobSignal ≤ 1
  answersOnce : m.answers.count true ≤ 1
  cause : JobAct.jobSignal ∈ acts → true ∈ m.answers

theorem sigLink_frame {acts : List JobAct} {a : JobAct} {m m' : JobM} (h : SigLink acts m)
    (h1 : m'.jobSig = m.jobSig) (h2 : m'.answers = m.answers) (h3 : a ≠ .jobSignal)
    (h4 : m'.pc = .init ↔ m.pc = .init) (h5 : (∃ r, m'.pc = .finished r) ↔ ∃ r, m.pc = .finished r) :
    SigLink (acts ++ [a]) m' := by
  have hm : JobAct.jobSignal ∈ acts ++ [a] ↔ JobAct.jobSignal ∈ acts := by simp [Ne.symm h3]
  refine ⟨?_, ?_, ?_, ?_, ?_⟩
  · rw [h1, h2, h4, h5, hm]; exact h.unreg
  · intro js hjs
    rw [h1] at hjs
    have := h.reg js hjs
    rw [h2, hm]
    refine ⟨this.1, this.2.1, this.2.2.1, this.2.2.2.1, ?_, ?_⟩
    · rw [ne_eq, h4]; exact this.2.2.2.2.1
    · intro r hr
      obtain ⟨r', hr'⟩ := h5.1 ⟨r, hr⟩
      exact this.2.2.2.2.2 r' hr'
  · rw [List.count_append]
    have : [a].count JobAct.jobSignal = 0 := by simp [h3]
    rw [this]; exact h.once
  · rw [h2]; exact h.answersOnce
  · rw [h2, hm]; exact h.cause

theorem sigLink_step {acts : List JobAct} {a : JobAct} {m m' : JobM} (h : SigLink acts m)
    (hs : m.step a = some m') : SigLink (acts ++ [a]) m' := by
  cases a
  case check b =>
    simp only [JobM.step] at hs
    split at hs
    · rename_i hpc
      have hn : m.jobSig = none := by
        rcases hjs : m.jobSig with _ | js
        · rfl
        · exact absurd hpc (h.reg js hjs).2.2.2.2.1
      have hi := (h.unreg hn).1 hpc
      split at hs
      · cases hs
        refine ⟨fun _ => ⟨by simp, .inr ⟨_, rfl⟩⟩, ?_, ?_, h.answersOnce, ?_⟩
        · simp [JobM.emit, hn]
        · simpa [List.count_append] using h.once
        · simpa [JobM.emit] using h.cause
      · cases hs
        refine ⟨by simp, ?_, ?_, h.answersOnce, ?_⟩
        · intro js hjs
          simp only [Option.some.injEq] at hjs
          subst hjs
          simp [hi]
        · simpa [List.count_append] using h.once
        · simpa using h.cause
    · simp at hs
  case finishJob =>
    simp only [JobM.step] at hs
    split at hs
    · cases hs
      refine ⟨fun _ => ⟨by simp, .inr ⟨_, rfl⟩⟩, by simp, ?_, h.answersOnce, ?_⟩
      · simpa [List.count_append] using h.once
      · simpa using h.cause
    · simp at hs
  case jobSignal =>
    simp only [JobM.step] at hs
    split at hs
    · rename_i s t0 d js hpc hjs
      split at hs
      · rename_i js' v hp
        cases hs
        obtain ⟨p1, p2, p3⟩ := poll_some hp
        have hr := h.reg js hjs
        have hv : v = .cancel := by
          by_cases hc : js.signal = some .cancel
          · rw [p2] at hc; exact Option.some.inj hc
          · have := mt hr.2.2.2.1.2 (by rw [p2]; simp)
            exact absurd (hr.2.2.1.2 (Classical.not_not.1 this)) hc
        have hnot : JobAct.jobSignal ∉ acts := by rw [← hr.1]; simp [p1]
        subst hv
        refine ⟨by simp, ?_, ?_, h.answersOnce, ?_⟩
        · intro js2 hjs2
          simp only [Option.some.injEq] at hjs2
          subst hjs2
          subst p3
          refine ⟨by simp, fun _ => p2, ?_, ?_, by simp, by simp⟩
          · exact hr.2.2.1
          · exact hr.2.2.2.1
        · rw [List.count_append, List.count_eq_zero.2 hnot]; simp
        · intro _; exact hr.2.2.1.1 p2
      · simp at hs
    · simp at hs
  case cancel =>
    have hmem : ∀ b, JobAct.jobSignal ∈ acts ++ [b] ↔ JobAct.jobSignal ∈ acts ∨ b = .jobSignal := by
      intro b; simp [eq_comm]
    simp only [JobM.step] at hs
    split at hs
    · rename_i hn
      cases hs
      refine ⟨?_, by simp [hn], ?_, ?_, ?_⟩
      · intro _
        have := h.unreg hn
        exact ⟨fun hpc => by simpa using this.1 hpc, this.2⟩
      · simpa [List.count_append] using h.once
      · simpa [List.count_append] using h.answersOnce
      · simpa using h.cause
    · rename_i js hjs
      cases hs
      have hr := h.reg js hjs
      refine ⟨by simp, ?_, ?_, ?_, ?_⟩
      · intro js2 hjs2
        simp only [Option.some.injEq] at hjs2
        subst hjs2
        rw [set_notified, set_signal, set_ok]
        refine ⟨by simpa using hr.1, ?_, ?_, ?_, hr.2.2.2.2.1, hr.2.2.2.2.2⟩
        · intro hn; rw [hr.2.1 hn]; rfl
        · rcases hsig : js.signal with _ | v
          · simp
          · simp only [Option.some_or, Option.isNone_some, List.mem_append, List.mem_singleton,
              Bool.true_eq_false, or_false]
            rw [← hsig]; exact hr.2.2.1
        · rcases hsig : js.signal with _ | v
          · simp
          · simp only [Option.some_or, Option.isNone_some, List.mem_append, List.mem_singleton,
              Bool.true_eq_false, or_false]
            rw [← hsig]; exact hr.2.2.2.1
      · simpa [List.count_append] using h.once
      · rw [List.count_append, set_ok]
        rcases hsig : js.signal with _ | v
        · have := hr.2.2.2.1.1 hsig
          rw [List.count_eq_zero.2 this]; simp
        · simpa using h.answersOnce
      · intro hm
        simp only [List.mem_append, List.mem_singleton, reduceCtorEq, or_false] at hm
        simp [h.cause hm]
  all_goals
    simp only [JobM.step] at hs
    (repeat' split at hs) <;> first
      | (exfalso; simp at hs; done)
      | (cases hs
         apply sigLink_frame h <;> simp_all [JobM.emit, JobM.stepDone])

/-- Why the current step's signal is set. -/
def CauseLink (acts : List JobAct) (m : JobM) : Prop :=
  ∀ s, runningStep m.pc = some s →
    (m.sig.signal = some .timeout → IdleTimeout acts s.timeout) ∧
    (m.sig.signal = some .cancel → JobAct.jobSignal ∈ acts)

theorem causeLink_step {acts : List JobAct} {a : JobAct} {m m' : JobM} (h : CauseLink acts m)
    (hsel : SelectLink acts m) (hsig : SigLink acts m)
    (hs : m.step a = some m') : CauseLink (acts ++ [a]) m' := by
  by_cases ha : a = .timer
  · subst ha
    simp only [JobM.step] at hs
    split at hs
    · rename_i s t0 d hpc
      split at hs
      · rename_i hd
        cases hs
        intro s' hs'
        simp only [runningStep, Option.some.injEq] at hs'
        subst hs'
        have hc := h s (by simp [hpc, runningStep])
        refine ⟨fun ht => ?_, fun hcn => ?_⟩
        · obtain ⟨p, q, t, h1, h2, h3, h4⟩ := hsel s t0 d hpc
          rw [h3, h4] at hd
          exact ⟨p, q, [], by simp [h1], h2, Nat.le_of_add_le_add_left hd, by simp⟩
        · rw [set_signal] at hcn
          rcases hss : m.sig.signal with _ | v
          · simp [hss] at hcn
          · rw [hss] at hcn
            simp only [Option.some_or] at hcn
            have := hc.2 (by rw [hss, hcn])
            simp [this]
      · simp at hs
    · simp at hs
  · by_cases hb : a = .jobSignal
    · subst hb
      simp only [JobM.step] at hs
      split at hs
      · rename_i s t0 d js hpc hjs
        split at hs
        · rename_i js' v hp
          cases hs
          intro s' hs'
          simp only [runningStep, Option.some.injEq] at hs'
          subst hs'
          have hc := h s (by simp [hpc, runningStep])
          refine ⟨fun ht => ?_, fun _ => by simp⟩
          rw [set_signal] at ht
          rcases hss : m.sig.signal with _ | v'
          · simp only [hss, Option.none_or, Option.some.injEq] at ht
            subst ht
            obtain ⟨_, p2, _⟩ := poll_some hp
            have hr := hsig.reg js hjs
            have h1 := mt hr.2.2.2.1.2 (by rw [p2]; simp)
            have h2 := hr.2.2.1.2 (Classical.not_not.1 h1)
            rw [p2] at h2; simp at h2
          · rw [hss] at ht
            simp only [Option.some_or] at ht
            exact idle_snoc (hc.1 (by rw [hss, ht])) (by simp)
        · simp at hs
      · simp at hs
    · by_cases hcall : a = .call
      · subst hcall
        simp only [JobM.step] at hs
        split at hs
        · split at hs
          · cases hs
            intro s' _
            simp [JobM.emit]
          · cases hs; intro s' hs'; simp [runningStep] at hs'
        · simp at hs
      · intro s' hs'
        have hk : m'.sig = m.sig ∧ runningStep m.pc = some s' := by
          job_cases a hs <;> simp_all [JobM.emit, JobM.stepDone, runningStep]
        have hc := h s' hk.2
        rw [hk.1]
        exact ⟨fun ht => idle_snoc (hc.1 ht) hcall, fun hcn => by simp [hc.2 hcn]⟩

/-- All invariants together. -/
theorem allInv_run {job : Job} {t : Time} {acts : List JobAct} {m : JobM} (h : JobReach job t acts m) :
    StreamLink acts m ∧ SelectLink acts m ∧ SigLink acts m ∧ CauseLink acts m := by
  refine runs_induct (P := fun acts m => StreamLink acts m ∧ SelectLink acts m ∧ SigLink acts m ∧ CauseLink acts m)
    ⟨?_, ?_, ?_, ?_⟩ ?_ h
  · intro s hs; simp [JobM.initial, runningStep] at hs
  · intro s t0 d hs; simp [JobM.initial] at hs
  · constructor <;> simp [JobM.initial]
  · intro s hs; simp [JobM.initial, runningStep] at hs
  · rintro acts a m m' _ ⟨h1, h2, h3, h4⟩ hs
    exact ⟨streamLink_step h1 hs, selectLink_step h2 hs, sigLink_step h3 hs, causeLink_step h4 h2 h3 hs⟩

end AstroRun
