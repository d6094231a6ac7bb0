import Verif.Props.FairLocalFutures

/-! # C123: silent processes do not hold a run up -/

namespace AstroRun
open Spec

namespace SilentLem
open FairLem FairLocalLem

/-- Moves to go for a job task that reads a stream, until it waits for lines or its timer. -/
def toGo (t : SysTask) : Nat :=
  4 * (t.stream.logs.length - t.stream.index) + match t.pc with
    | .handling _ _ _ => 1
    | .emitting es _ => es.length + 2
    | _ => 0

theorem now_step {M M' : Sys} {x : SysAct} (h : M.step x = some M') : M.now ≤ M'.now := by
  rcases sys_step_cases h with ⟨wf, rfl, rfl⟩ | ⟨n, b, ρ₁, ρ₂, rfl, hρ, hm, rfl⟩ |
    ⟨n, j, b, ρ, t, g', ρ', h1, hρ, htt, hmm, rfl⟩ | ⟨n, rfl, rfl⟩ | ⟨j, x, rfl, rfl⟩
  all_goals first
    | exact Nat.le_refl _
    | exact Nat.le_add_right _ _

theorem now_mono {f : Nat → Sys} {x : Nat → SysAct} (hx : ∀ n, (f n).step (x n) = some (f (n + 1))) {m k : Nat} (h : m ≤ k) :
    (f m).now ≤ (f k).now := by
  induction k with
  | zero => rw [Nat.le_zero.1 h]
  | succ k ih =>
    rcases Nat.lt_or_ge k m with h1 | h1
    · have : m = k + 1 := by omega
      rw [this]
    · exact Nat.le_trans (ih h1) (now_step (hx k))

theorem set_signal_some (s : SigState) (v : Signal) : (s.set v).state.signal ≠ none := by
  unfold SigState.set
  split
  · rename_i h; simp [h]
  · simp

/-- A move of a job task that goes on reading, whose step got no signal and whose stream got nothing. -/
theorem quiet_move {g g' : SigMgr} {ρ ρ' : SysRun} {now : Time} {i : Nat} {t t' : SysTask} {b : TaskAct}
    (hlen : i < ρ.tasks.length) (h : Sys.taskStep g ρ now i t b = some (g', ρ')) (ht' : ρ'.tasks[i]? = some t') (hr : t.pc.reading = true)
    (hr' : t'.pc.reading = true) (hs' : t'.sig.signal = none) (hres' : t'.stream.result = none) (hp : ∀ l, b ≠ .push l) : toGo t' < toGo t := by
  have got : ∀ u, ρ'.tasks = ρ.tasks.set i u → t' = u := by
    intro u hu
    rw [hu, List.getElem?_set] at ht'
    simp [hlen] at ht'
    exact ht'.symm
  cases b
  case emit =>
    simp only [Sys.taskStep] at h
    split at h
    · rename_i k hpc
      cases h
      have := got _ rfl
      subst this
      rw [hpc] at hr
      cases k <;> simp only [SysPc.reading, reduceCtorEq] at hr
      simp [toGo, hpc]
    · rename_i e es k hpc
      cases h
      have := got _ rfl
      subst this
      simp [toGo, hpc]
    · simp at h
  case enter =>
    simp only [Sys.taskStep, SysTask.step] at h
    split at h
    · rename_i s t0 ref hpc
      simp only [Option.map_some, Option.some.injEq, Prod.mk.injEq] at h
      obtain ⟨rfl, rfl⟩ := h
      have := got _ rfl
      subst this
      simp [toGo, hpc]
    · simp at h
  case timer =>
    simp only [Sys.taskStep, SysTask.step] at h
    split at h
    · split at h
      · simp only [Option.map_some, Option.some.injEq, Prod.mk.injEq] at h
        obtain ⟨rfl, rfl⟩ := h
        have := got _ rfl
        subst this
        exact absurd hs' (set_signal_some _ _)
      · simp at h
    · simp at h
  case jobSignal =>
    simp only [Sys.taskStep] at h
    split at h
    · split at h
      · split at h
        · simp only [Option.some.injEq, Prod.mk.injEq] at h
          obtain ⟨rfl, rfl⟩ := h
          have := got _ rfl
          subst this
          exact absurd hs' (set_signal_some _ _)
        · simp at h
      · simp at h
    · simp at h
  case recv =>
    simp only [Sys.taskStep, SysTask.step] at h
    split at h
    · rename_i s t0 d ref hpc
      split at h
      · rename_i st' l hpoll
        simp only [Option.map_some, Option.some.injEq, Prod.mk.injEq] at h
        obtain ⟨rfl, rfl⟩ := h
        have := got _ rfl
        subst this
        have hq : st'.logs = t.stream.logs ∧ st'.index = t.stream.index + 1 ∧ t.stream.index < t.stream.logs.length := by
          unfold StreamState.poll at hpoll
          simp only at hpoll
          split at hpoll
          · rename_i l' hl
            simp only [Prod.mk.injEq] at hpoll
            obtain ⟨rfl, _⟩ := hpoll
            exact ⟨rfl, rfl, (List.getElem?_eq_some_iff.1 hl).1⟩
          · split at hpoll <;> simp at hpoll
        simp only [toGo, SysTask.emitThen, hpc, hq.1, hq.2.1, List.length_singleton]
        omega
      · split at h
        · simp only [Option.map_some, Option.some.injEq, Prod.mk.injEq] at h
          obtain ⟨rfl, rfl⟩ := h
          have := got _ rfl
          subst this
          simp [SysTask.stepDone, SysTask.emitThen, SysPc.reading] at hr'
        · simp at h
      · simp at h
    · simp at h
  case push l => exact absurd rfl (hp l)
  case endStream res =>
    simp only [Sys.taskStep, SysTask.step] at h
    split at h
    · simp only [Option.map_some, Option.some.injEq, Prod.mk.injEq] at h
      obtain ⟨rfl, rfl⟩ := h
      have := got _ rfl
      subst this
      exfalso
      simp only at hres'
      unfold StreamState.endSeq at hres'
      split at hres'
      · rename_i hh; simp only [StreamState.isEnded] at hh; rw [show t.stream.result = none from hres'] at hh; cases hh
      · simp [StreamState.endWrite] at hres'
    · simp at h
  all_goals
    exfalso
    first
      | (simp only [Sys.taskStep, SysTask.step] at h
         split at h
         · rename_i hpc
           rw [hpc] at hr; cases hr
         · simp at h)
      | (simp only [Sys.taskStep, SysTask.step] at h
         split at h
         · rename_i hpc _
           rw [hpc] at hr; cases hr
         · simp at h)

/-- A job task between two moves. -/
theorem task_between {M M' : Sys} {x : SysAct} (h : M.step x = some M') {r i : Nat} {t : SysTask} (ht : taskAt M r i = some t) :
    taskAt M' r i = some t ∧ (∀ b, x ≠ .task r i b) ∨ ∃ b, x = .task r i b := by
  by_cases hx : ∃ b, x = .task r i b
  · exact .inr hx
  · refine .inl ⟨?_, fun b e => hx ⟨b, e⟩⟩
    by_cases hn : ∃ r' i' b, x = .task r' i' b
    · obtain ⟨r', i', b, rfl⟩ := hn
      rcases sys_step_cases h with ⟨wf, h1, _⟩ | ⟨n, b, ρ₁, ρ₂, h1, _⟩ | ⟨n, j, b, ρ, u, g', ρ', h1, hρ, htt, hmm, rfl⟩ | ⟨n, h1, _⟩ | ⟨j, x, h1, _⟩
      all_goals cases h1
      obtain ⟨u', e1, _⟩ := taskStep_frame hmm
      rw [← ht]
      exact taskAt_set_ne hρ e1 (by rintro ⟨rfl, rfl⟩; exact hx ⟨b, rfl⟩)
    · rcases taskAt_main h (fun r' i' b e => hn ⟨r', i', b, e⟩) r i with h1 | ⟨h1, _⟩
      · rw [h1]; exact ht
      · rw [h1] at ht; cases ht

/-- A job task that goes on reading a stream to which nothing is written gets a signal: its timer sees to that. -/
theorem times_out {f : Nat → Sys} {x : Nat → SysAct} (hx : ∀ n, (f n).step (x n) = some (f (n + 1))) (hclock : ∀ T, ∃ n, T ≤ (f n).now)
    {r i K : Nat} (hwork : WeaklyFair Sys.step f x (workOf r i)) (htimer : WeaklyFair Sys.step f x fun y => y = .task r i .timer)
    (hread : ∀ k, K ≤ k → ∃ t, taskAt (f k) r i = some t ∧ t.pc.reading = true ∧ t.stream.result = none)
    (hno : ∀ k l, K ≤ k → x k ≠ .task r i (.push l)) : ∃ k t, K ≤ k ∧ taskAt (f k) r i = some t ∧ t.sig.signal ≠ none := by
  apply Classical.byContradiction
  intro hnever
  have hex : ∀ n, ∃ t, taskAt (f (K + n)) r i = some t ∧ t.pc.reading = true ∧ t.stream.result = none ∧ t.sig.signal = none := by
    intro n
    obtain ⟨t, h1, h2, h3⟩ := hread (K + n) (by omega)
    refine ⟨t, h1, h2, h3, ?_⟩
    cases hs : t.sig.signal with
    | none => rfl
    | some v => exact absurd ⟨K + n, t, by omega, h1, by rw [hs]; simp⟩ hnever
  choose T hT hTr hTres hTs using hex
  have hmove : ∀ n, (T (n + 1) = T n ∧ ∀ b, x (K + n) ≠ .task r i b) ∨ toGo (T (n + 1)) < toGo (T n) := by
    intro n
    rcases task_between (hx (K + n)) (hT n) with ⟨h, h'⟩ | ⟨b, hb⟩
    · left
      have := hT (n + 1)
      rw [show K + (n + 1) = K + n + 1 from rfl, h] at this
      exact ⟨(Option.some.inj this).symm, h'⟩
    · right
      have hs := hx (K + n)
      rw [hb] at hs
      obtain ⟨ρ, t, t', hρ, h1, h2, _, g, ρ', h3, h4⟩ := task_act hs
      have e1 : t = T n := by rw [hT n] at h1; exact (Option.some.inj h1).symm
      have e2 : t' = T (n + 1) := by have := hT (n + 1); rw [show K + (n + 1) = K + n + 1 from rfl, h2] at this; exact Option.some.inj this
      subst e1 e2
      have hlen : i < ρ.tasks.length := by
        obtain ⟨ρ2, q1, q2⟩ := taskAt_some h1
        rw [hρ] at q1; cases q1
        exact (List.getElem?_eq_some_iff.1 q2).1
      refine quiet_move hlen h3 h4 (hTr n) (hTr (n + 1)) (hTs (n + 1)) (hTres (n + 1)) ?_
      rintro l rfl
      exact hno (K + n) l (by omega) hb
  -- from some point on it does not move
  obtain ⟨N, hN⟩ : ∃ N, ∀ n, N ≤ n → (T (n + 1) = T n ∧ ∀ b, x (K + n) ≠ .task r i b) := by
    apply Classical.byContradiction
    intro hno
    refine no_descent (fun n => toGo (T n)) 0 (fun m _ => ?_) fun m _ => ?_
    · rcases hmove m with h | h
      · show toGo (T (m + 1)) ≤ toGo (T m)
        rw [h.1]
      · exact Nat.le_of_lt h
    · apply Classical.byContradiction
      intro hn
      refine hno ⟨m, fun n hn' => ?_⟩
      rcases hmove n with h | h
      · exact h
      · exact absurd ⟨n, hn', h⟩ hn
  have hsame : ∀ n, N ≤ n → T n = T N := by
    intro n hn
    induction n with
    | zero => rw [Nat.le_zero.1 hn]
    | succ n ih =>
      rcases Nat.lt_or_ge n N with h | h
      · rw [show n + 1 = N by omega]
      · rw [(hN n h).1, ih h]
  have hw : ∀ b, isWork b → ¬ ∀ k, K + N ≤ k → (f k).step (.task r i b) ≠ none := by
    intro b hb hp
    obtain ⟨k, hk, y, hy, _⟩ := hwork ⟨K + N, fun k hk => ⟨.task r i b, workOf_iff.2 ⟨b, rfl, hb⟩, hp k hk⟩⟩ (K + N)
    obtain ⟨n, rfl⟩ := Nat.exists_eq_add_of_le (show K ≤ k by omega)
    exact (hN n (by omega)).2 y hy
  have hat : ∀ k, K + N ≤ k → ∃ ρ, (f k).runs[r]? = some ρ ∧ ρ.tasks[i]? = some (T N) := by
    intro k hk
    obtain ⟨n, rfl⟩ := Nat.exists_eq_add_of_le (show K ≤ k by omega)
    have := hT n
    rw [hsame n (by omega)] at this
    exact taskAt_some this
  cases hpc : (T N).pc with
  | handling s t0 ref =>
    refine hw .enter trivial fun k hk => ?_
    obtain ⟨ρ, h1, h2⟩ := hat k hk
    simp [Sys.step, h1, h2, Sys.taskStep, SysTask.step, hpc]
  | emitting es k' =>
    refine hw .emit trivial fun k hk => ?_
    obtain ⟨ρ, h1, h2⟩ := hat k hk
    cases es <;> simp [Sys.step, h1, h2, Sys.taskStep, hpc]
  | select s t0 d ref =>
    obtain ⟨n, hn⟩ := hclock d
    obtain ⟨k, hk, hc⟩ := htimer ⟨K + N + n, fun k hk => ⟨.task r i .timer, rfl, by
      obtain ⟨ρ, h1, h2⟩ := hat k (by omega)
      have : d ≤ (f k).now := Nat.le_trans hn (now_mono hx (by omega))
      simp [Sys.step, h1, h2, Sys.taskStep, SysTask.step, hpc, this]⟩⟩ (K + N + n)
    obtain ⟨n, rfl⟩ := Nat.exists_eq_add_of_le (show K ≤ k by omega)
    exact (hN n (by omega)).2 _ hc
  | _ => have := hTr N; rw [hpc] at this; cases this

/-- Fairness of the engine's tasks, seen by the engine. -/
theorem work_fair {f : Nat → LocalEngine} {a : Nat → EngineAct} {x : Nat → SysAct} {r i : Nat}
    (h : WeaklyFair LocalEngine.step f a (engineJobOf r i)) (hxs : ∀ n, Shadow (f n) (a n) (x n)) :
    WeaklyFair Sys.step (fun n => (f n).sys) x (workOf r i) := by
  intro hf
  have := h (by
    obtain ⟨n, hn⟩ := hf
    refine ⟨n, fun m hm => ?_⟩
    obtain ⟨y, hy, hp⟩ := hn m hm
    exact job_possible hy hp)
  intro n
  obtain ⟨m, hm, hc⟩ := this n
  have hs := hxs m
  refine ⟨m, hm, ?_⟩
  rcases hc with ⟨y, hb, hw⟩ | ⟨past, envs, hb⟩
  · rw [hb] at hs
    show workOf r i (x m)
    rw [hs.1]; exact hw
  · rw [hb] at hs
    show workOf r i (x m)
    rw [show x m = _ from hs]
    exact workOf_iff.2 ⟨_, rfl, trivial⟩

/-- The same of timers. -/
theorem timer_fair {f : Nat → LocalEngine} {a : Nat → EngineAct} {x : Nat → SysAct} {r i : Nat}
    (h : WeaklyFair LocalEngine.step f a (engineTimerOf r i)) (hxs : ∀ n, Shadow (f n) (a n) (x n)) :
    WeaklyFair Sys.step (fun n => (f n).sys) x (fun y => y = .task r i .timer) := by
  intro hf
  have := h (by
    obtain ⟨n, hn⟩ := hf
    refine ⟨n, fun m hm => ?_⟩
    obtain ⟨y, hy, hp⟩ := hn m hm
    have hy : y = _ := hy
    subst hy
    exact ⟨_, rfl, sys_possible rfl hp⟩)
  intro n
  obtain ⟨m, hm, hc⟩ := this n
  have hs := hxs m
  rw [show a m = _ from hc] at hs
  exact ⟨m, hm, hs.1⟩

theorem set_keeps {s : SigState} (h : s.signal ≠ none) (v : Signal) : (s.set v).state.signal ≠ none := set_signal_some s v

/-- A step's signal is not taken back. -/
theorem signal_stays {g g' : SigMgr} {ρ ρ' : SysRun} {now : Time} {i : Nat} {t t' : SysTask} {b : TaskAct}
    (h : Sys.taskStep g ρ now i t b = some (g', ρ')) (ht' : ρ'.tasks[i]? = some t') (hs : t.sig.signal ≠ none) (hr' : t'.pc.reading = true) :
    t'.sig.signal ≠ none := by
  have hlen : i < ρ'.tasks.length := (List.getElem?_eq_some_iff.1 ht').1
  have got : ∀ u, ρ'.tasks = ρ.tasks.set i u → t' = u := by
    intro u hu
    rw [hu, List.length_set] at hlen
    rw [hu, List.getElem?_set] at ht'
    simp [hlen] at ht'
    exact ht'.symm
  cases b <;> simp only [Sys.taskStep, SysTask.step] at h
  all_goals first
    | (simp at h; done)
    | (repeat' split at h
       all_goals first
         | (simp at h; done)
         | (simp only [Option.map_some, Option.some.injEq, Prod.mk.injEq] at h
            obtain ⟨rfl, rfl⟩ := h
            have := got _ rfl
            subst this
            first
              | exact hs
              | exact set_keeps hs _
              | cases hr'))

/-- A task of the runner that was sent a signal and has not ended its stream can go on. -/
theorem signalled_goes_on {p : RunPlan} {n : Nat} {la : List LocalAct} {l : LocalRun} (h : LocalReach p n la l) (hres : l.stream.result = none)
    (hs : l.sig.signal ≠ none) : ∃ b : LocalAct, b.own = true ∧ isFailure b = false ∧ l.step b ≠ none := by
  obtain ⟨h1, h2⟩ := local_reach h
  cases hpc : l.pc with
  | start => exact ⟨.begin_, rfl, rfl, by simp only [LocalRun.step, hpc, if_true]; split <;> simp⟩
  | mkdir => exact ⟨.mkdirOk, rfl, rfl, by simp [LocalRun.step, hpc]⟩
  | entry => exact ⟨.entryOk, rfl, rfl, by simp [LocalRun.step, hpc]⟩
  | select c =>
    refine ⟨.sigReady, rfl, rfl, ?_⟩
    have hf : l.sig.isNotified = false := by
      rw [h2.fresh]
      simp only [ResOk, hpc] at h1
      cases c <;> simp only [] at h1
      case okDone => obtain ⟨_, _, e, _⟩ := h1; rw [hres] at e; cases e
      all_goals rw [h1.2.2]; rfl
    obtain ⟨v, hv⟩ := Option.ne_none_iff_exists'.1 hs
    simp only [LocalRun.step, hpc, SigState.poll, hf, hv, Bool.false_eq_true, if_false]
    cases l.kind <;> simp
  | kill v => exact ⟨.killDone, rfl, rfl, by simp [LocalRun.step, hpc]⟩
  | remove => exact ⟨.removeOk, rfl, rfl, by simp [LocalRun.step, hpc]⟩
  | returned => exact ⟨.finish, rfl, rfl, by simp [LocalRun.step, hpc]⟩
  | hooks k => simp only [ResOk, hpc] at h1; rw [hres] at h1; cases h1
  | done => simp only [ResOk, hpc] at h1; rw [hres] at h1; cases h1

end SilentLem

open FairLem FairLocalLem SilentLem

/-- **C123** An engine on the local runner, in any endless execution, whatever its users, its other workflows and the operating system do:
if time passes, the tasks of a run and the runner's tasks for it are not starved, the `select!` of a step ignores neither its stream nor its
timer forever, and every process started for the run writes finitely many lines, then the run returns: a process that falls silent
without ever ending does not hold it up. -/
theorem C123_silent_processes_runs_return (setup : EngineSetup) (f : Nat → LocalEngine) (a : Nat → EngineAct) (hE : EngineEndless setup f a)
    (hap : ∀ n, Apart (engineMoves (firstMoves a n))) (hk : ∀ n, EngineHooksKeepJobs setup (firstMoves a n)) (r n0 : Nat) (ρ0 : SysRun)
    (hr0 : (f n0).sys.runs[r]? = some ρ0) (hu : UniqueJobs ρ0.wf) (ho : OwnIds ρ0.wf) (hd : DepsDefined ρ0.wf) (hac : Acyclic ρ0.wf)
    (hne : ρ0.wf.jobs ≠ []) (hmain : WeaklyFair LocalEngine.step f a (engineMainOf r))
    (hjob : ∀ i, WeaklyFair LocalEngine.step f a (engineJobOf r i)) (hrecv : ∀ i, StronglyFair LocalEngine.step f a (engineRecvOf r i))
    (htimer : ∀ i, WeaklyFair LocalEngine.step f a (engineTimerOf r i)) (htask : ∀ i n, WeaklyFair LocalEngine.step f a (runnerTaskOf r i n))
    (htime : TimePasses f) (hproc : ProcessesFallSilent a r) :
    ∃ n ρ res, n0 ≤ n ∧ (f n).sys.runs[r]? = some ρ ∧ ρ.pc = .returned res := by
  refine local_returns setup f a hE hap hk r n0 ρ0 hr0 hu ho hd hac hne hmain hjob hrecv ?_
  intro x hx hxs i n hact
  have hact : ∀ m t, n ≤ m → taskAt (f m).sys r i = some t → t.pc.runnerActive = true := fun m t hm ht => hact m t hm (taskNow_iff.2 ht)
  by_cases hex : ∃ m t, n ≤ m ∧ taskAt (f m).sys r i = some t
  · obtain ⟨m, t, hm, ht⟩ := hex
    obtain ⟨m1, L, hm1, hgetL⟩ := reads_forever setup f a hE r i m t (hjob i) x hx hxs ht fun k t hk ht => hact k t (by omega) ht
    -- the runner's task does nothing more from some point on
    obtain ⟨N, hN⟩ := hproc i L
    have hstop : ∃ K, m1 ≤ K ∧ N ≤ K ∧ ∀ k b, K ≤ k → b.own = true → a k ≠ .loc r i L b := by
      apply Classical.byContradiction
      intro hno
      let w : Nat → Nat := fun k => ((((f k).tasks r i)[L]?).map fun y => y.2.work).getD 0
      have hw : ∀ k, m1 + N ≤ k → w (k + 1) ≤ w k ∧ ∀ b, a k = .loc r i L b → b.own = true → w (k + 1) < w k := by
        intro k hk
        obtain ⟨t, p, l, la, _, _, hg, hla, _⟩ := hgetL k (by omega)
        obtain ⟨l', h1, h2, h3⟩ := task_quiet (hE.moves k) hg (local_reach hla).2 (hN k (by omega))
        simp only [w, hg, h1, Option.map_some, Option.getD_some]
        exact ⟨h2, h3⟩
      refine no_descent w (m1 + N) (fun k hk => (hw k hk).1) ?_
      intro k hk
      apply Classical.byContradiction
      intro hnd
      refine hno ⟨k, by omega, by omega, fun j b hj hb he => hnd ⟨j, hj, (hw j (by omega)).2 b he hb⟩⟩
    obtain ⟨K, hK1, hK2, hK⟩ := hstop
    have hnopush : ∀ k lg, K ≤ k → x k ≠ .task r i (.push lg) := by
      intro k lg hk he
      have hs := hxs k
      rw [he] at hs
      cases ha : a k with
      | sys y => rw [ha] at hs; obtain ⟨h1, h2⟩ := hs; rw [← h1] at h2; cases h2
      | spawned r' i' past envs =>
        rw [ha] at hs
        have hs : SysAct.task r i (.push lg) = .task r' i' .accept := hs
        simp at hs
      | loc r' i' n' b =>
        rw [ha] at hs
        rcases hs with hs | ⟨b', h1, _, h3, h4⟩
        · cases hs
        · simp only [SysAct.task.injEq] at h1
          obtain ⟨rfl, rfl, _⟩ := h1
          obtain ⟨_, _, _, _, _, _, _, _, _, _, hlen⟩ := hgetL k (by omega)
          have : n' = L := by omega
          subst this
          exact hK k b (by omega) h3 ha
    -- the stream has ended at some time
    obtain ⟨m2, t2, hm2, ht2, hres2⟩ : ∃ m2 t2, K ≤ m2 ∧ taskAt (f m2).sys r i = some t2 ∧ t2.stream.result ≠ none := by
      apply Classical.byContradiction
      intro hno
      have hnone : ∀ k t, K ≤ k → taskAt (f k).sys r i = some t → t.stream.result = none := by
        intro k t hk ht
        cases hq : t.stream.result with
        | none => rfl
        | some v => exact absurd ⟨k, t, hk, ht, by rw [hq]; simp⟩ hno
      obtain ⟨k0, t0, hk0, ht0, hs0⟩ := times_out (f := fun n => (f n).sys) hx htime (r := r) (i := i) (K := K)
        (work_fair (hjob i) hxs) (timer_fair (htimer i) hxs) (by
          intro k hk
          obtain ⟨t, _, _, _, h1, h2, _⟩ := hgetL k (by omega)
          exact ⟨t, h1, h2, hnone k t hk h1⟩) hnopush
      have hsig : ∀ k, k0 ≤ k → ∃ t, taskAt (f k).sys r i = some t ∧ t.sig.signal ≠ none := by
        intro k hk
        induction k with
        | zero => rw [Nat.le_zero.1 hk] at ht0; exact ⟨t0, ht0, hs0⟩
        | succ k ih =>
          rcases Nat.lt_or_ge k k0 with h | h
          · have e : k0 = k + 1 := by omega
            rw [e] at ht0; exact ⟨t0, ht0, hs0⟩
          · obtain ⟨u, hu, hs⟩ := ih h
            obtain ⟨u', _, _, _, hu', hr', _⟩ := hgetL (k + 1) (by omega)
            refine ⟨u', hu', ?_⟩
            rcases task_between (hx k) hu with ⟨h1, _⟩ | ⟨b, hb⟩
            · rw [h1] at hu'; cases hu'; exact hs
            · have hst := hx k
              rw [hb] at hst
              obtain ⟨ρ, v, v', hρ, h1, h2, _, g, ρ', h3, h4⟩ := task_act hst
              rw [hu] at h1; cases h1
              rw [hu'] at h2; cases h2
              exact signal_stays h3 h4 hs hr'
      obtain ⟨k, hk, b, hb, h1, _⟩ := htask i L ⟨k0, fun k hk => by
        obtain ⟨t, p, l, la, h1, h2, h3, h4, h5, h6, _⟩ := hgetL k (by omega)
        obtain ⟨u, hu, hs⟩ := hsig k hk
        rw [h1] at hu; cases hu
        obtain ⟨b, b1, b2, b3⟩ := signalled_goes_on h4 (by rw [h5]; exact hnone k t (by omega) h1) (by rw [h6]; exact hs)
        exact ⟨.loc r i L b, ⟨b, rfl, b1, b2⟩, loc_possible h3 b1 b3⟩⟩ k0
      exact hK k b (by omega) h1 hb
    refine ⟨m2, by omega, ?_, fun k lg hk => hnopush k lg (by omega)⟩
    intro u hu
    rw [taskNow_iff, ht2] at hu
    cases hu
    exact hres2
  · refine ⟨n, Nat.le_refl _, fun t ht => absurd ⟨n, t, Nat.le_refl _, taskNow_iff.1 ht⟩ hex, ?_⟩
    intro k l hk he
    have := hx k
    rw [he] at this
    obtain ⟨_, t, _, _, ht, _⟩ := task_act this
    exact hex ⟨k, t, hk, ht⟩

open FairSched

/-- The kinds of moves: of main tasks, job tasks, their reading the stream, the runner's tasks, timers and the clock. -/
def muteOf (c r i n : Nat) : EngineAct → Prop :=
  match c with
  | 0 => engineMainOf r
  | 1 => engineJobOf r i
  | 2 => engineRecvOf r i
  | 3 => runnerTaskOf r i n
  | 4 => engineTimerOf r i
  | 5 => fun y => y = .sys (.tick 1)
  | _ => fun _ => False

/-- The kinds, numbered. -/
def muteKind (k : Nat) : EngineAct → Prop :=
  muteOf (Nat.unpair k).1 (Nat.unpair (Nat.unpair k).2).1 (Nat.unpair (Nat.unpair (Nat.unpair k).2).2).1
    (Nat.unpair (Nat.unpair (Nat.unpair k).2).2).2

theorem muteKind_no (c r i n : Nat) : muteKind (kindNo c r i n) = muteOf c r i n := by
  simp only [muteKind, kindNo, Nat.unpair_pair]

theorem muteOf_start {c r i n : Nat} {wf : Workflow} (hy : muteOf c r i n (.sys (.start wf))) : False := by
  match c, hy with
  | 0, ⟨b', e⟩ => cases e
  | 1, .inl ⟨z, e, hz⟩ =>
    cases e
    obtain ⟨b', e, hb'⟩ := FairLem.workOf_iff.1 hz
    cases e
  | 1, .inr ⟨p, en, e⟩ => cases e
  | 2, e => cases e
  | 3, ⟨b', e, _⟩ => cases e
  | 4, e => cases e
  | 5, e => cases e
  | (_ + 6), e => exact e

theorem muteOf_withoutProcesses {c r i n : Nat} {y : EngineAct} (hy : muteOf c r i n y) : withoutProcesses y = true := by
  match c, hy with
  | 0, ⟨b', e⟩ => rw [e]; rfl
  | 1, .inl ⟨z, e, hz⟩ =>
    obtain ⟨b', rfl, hb'⟩ := FairLem.workOf_iff.1 hz
    rw [e]
    cases b' <;> first | rfl | exact absurd hb' id
  | 1, .inr ⟨p, en, e⟩ => rw [e]; rfl
  | 2, e => rw [show y = _ from e]; rfl
  | 3, ⟨b', e, ho, hf⟩ => rw [e]; simp [withoutProcesses, hf, ho]
  | 4, e => rw [show y = _ from e]; rfl
  | 5, e => rw [show y = _ from e]; rfl
  | (_ + 6), e => exact absurd e id

theorem mute_no_start {k : Nat} {wf : Workflow} (hy : muteKind k (.sys (.start wf))) : False := muteOf_start hy

/-- A kind with one hook has them all. -/
theorem muteOf_next {c r i n r' i' : Nat} {b : Bool} {s : Step} (s' : Step)
    (hy : muteOf c r i n (.sys (.task r' i' (.nextStep b s)))) : muteOf c r i n (.sys (.task r' i' (.nextStep b s'))) := by
  match c, hy with
  | 0, ⟨b', e⟩ => cases e
  | 1, .inl ⟨z, e, hz⟩ =>
    cases e
    obtain ⟨b', e, hb'⟩ := FairLem.workOf_iff.1 hz
    cases e
    exact .inl ⟨_, rfl, FairLem.workOf_iff.2 ⟨_, rfl, hb'⟩⟩
  | 1, .inr ⟨p, en, e⟩ => cases e
  | 2, e => cases e
  | 3, ⟨b', e, _⟩ => cases e
  | 4, e => cases e
  | 5, e => cases e
  | (_ + 6), e => exact absurd e id

/-- No kind starts a run, and each can be done without hooks that move steps to other jobs. -/
theorem mute_moves {setup : EngineSetup} {acts : List EngineAct} {E : LocalEngine} {k : Nat} (h : EngineFine setup acts E)
    (hc : can LocalEngine.step muteKind E k) :
    ∃ y E', muteKind k y ∧ E.step y = some E' ∧ EngineFine setup (acts ++ [y]) E' ∧ withoutProcesses y = true := by
  obtain ⟨y, hy, hs⟩ := hc
  obtain ⟨E', hE'⟩ := Option.ne_none_iff_exists'.1 hs
  by_cases hn : ∃ r i b s, y = .sys (.task r i (.nextStep b s))
  · obtain ⟨r, i, b, s, rfl⟩ := hn
    simp only [LocalEngine.step, SysAct.byRunner, Bool.false_eq_true, if_false, Option.map_eq_some_iff] at hE'
    obtain ⟨M, hM, -⟩ := hE'
    obtain ⟨ρ, t, x, hρ, hT, -, -, g, ρ1, hx, -⟩ := task_act hM
    obtain ⟨ρ', hρ', ht⟩ := taskAt_some hT
    rw [hρ] at hρ'
    cases hρ'
    let s' : Step := { s with id := ⟨t.job.id.workflow, t.job.id.job, s.id.number⟩ }
    have hp : E.step (.sys (.task r i (.nextStep b s'))) ≠ none := by
      refine sys_possible rfl ?_
      intro hbad
      simp only [Sys.step, hρ, ht, Option.bind_eq_bind, Option.bind_some, Sys.taskStep] at hbad hx
      cases hq : t.step E.sys.now (.nextStep b s') with
      | some t2 => simp [hq] at hbad
      | none =>
        cases hq2 : t.step E.sys.now (.nextStep b s) with
        | none => simp [hq2] at hx
        | some t2 =>
          simp only [SysTask.step] at hq hq2
          split at hq2 <;> simp_all
          split at hq <;> simp at hq
    obtain ⟨E1, hE1⟩ := Option.ne_none_iff_exists'.1 hp
    refine ⟨_, E1, ?_, hE1, h.snoc hE1 (by simp) ?_, rfl⟩
    · exact muteOf_next s' hy
    · intro r' i' b' s1 e t' ht'
      cases e
      rw [hT] at ht'
      cases ht'
      rfl
  · refine ⟨y, E', hy, hE', h.snoc hE' ?_ fun r i b s e => absurd ⟨r, i, b, s, e⟩ hn, muteOf_withoutProcesses hy⟩
    rintro wf rfl
    exact mute_no_start hy

theorem mute_idles {setup : EngineSetup} {acts : List EngineAct} {E : LocalEngine} (h : EngineFine setup acts E) :
    ∃ y E', E.step y = some E' ∧ EngineFine setup (acts ++ [y]) E' ∧ withoutProcesses y = true := by
  have hs : E.step (.sys (.tick 1)) ≠ none := sys_possible rfl (by simp [Sys.step])
  obtain ⟨E', hE'⟩ := Option.ne_none_iff_exists'.1 hs
  exact ⟨_, E', hE', h.snoc hE' (by simp) (by simp), rfl⟩


/-- **C123** Such executions exist, whatever has happened before: every schedule can be continued to an endless execution that treats
*all* runs fairly and in which no process does anything any more: the processes running then never end. -/
theorem C123_fair_futures (setup : EngineSetup) (acts : List EngineAct) (E : LocalEngine) (h : EngineReach setup acts E)
    (ha : Apart (engineMoves acts)) (hk : EngineHooksKeepJobs setup acts) :
    ∃ f a, EngineEndless setup f a ∧ firstMoves a acts.length = acts ∧ f acts.length = E ∧
      (∀ n, Apart (engineMoves (firstMoves a n))) ∧ (∀ n, EngineHooksKeepJobs setup (firstMoves a n)) ∧
      (∀ n, acts.length ≤ n → withoutProcesses (a n) = true) ∧ TimePasses f ∧
      ∀ r, WeaklyFair LocalEngine.step f a (engineMainOf r) ∧ (∀ i, WeaklyFair LocalEngine.step f a (engineJobOf r i)) ∧
        (∀ i, StronglyFair LocalEngine.step f a (engineRecvOf r i)) ∧ (∀ i, WeaklyFair LocalEngine.step f a (engineTimerOf r i)) ∧
        (∀ i n, WeaklyFair LocalEngine.step f a (runnerTaskOf r i n)) ∧ ProcessesFallSilent a r := by
  obtain ⟨f, a, f0, hm, hfirst, hfE, hP, hfair⟩ := fair_future (step := LocalEngine.step) (cls := muteKind) (Q := fun _ y => withoutProcesses y = true)
    (P := EngineFine setup) (fun _ _ _ h hc => mute_moves h hc) (fun _ _ h => mute_idles h) (s00 := LocalEngine.initial setup) h ⟨h, ha, hk⟩
  have hE : EngineEndless setup f a := ⟨f0, hm⟩
  have hpre : ∀ n, Apart (engineMoves (firstMoves a n)) ∧ EngineHooksKeepJobs setup (firstMoves a n) := by
    intro n
    rcases Nat.le_total acts.length n with hn | hn
    · exact (hP n hn).1.2
    · have e : firstMoves a n ++ acts.drop n = acts := by
        have : firstMoves a n = acts.take n := by
          rw [← hfirst]
          simp only [firstMoves, ← List.map_take, List.take_range, Nat.min_eq_left hn]
        rw [this, List.take_append_drop]
      have e3 : engineMoves (firstMoves a n) ++ engineMoves (acts.drop n) = engineMoves acts := by
        conv => rhs; rw [← e]
        simp [engineMoves, List.filterMap_append]
      exact ⟨Apart.prefix (e3 ▸ ha), keepJobs_prefix (e.symm ▸ hk)⟩
  have key : ∀ c r i n, StronglyFair LocalEngine.step f a (muteOf c r i n) := by
    intro c r i n
    have := hfair (kindNo c r i n)
    rwa [muteKind_no] at this
  refine ⟨f, a, hE, hfirst, hfE, fun n => (hpre n).1, fun n => (hpre n).2, fun n hn => (hP n hn).2, ?_, fun r => ?_⟩
  · -- the clock
    have htick : Often fun n => a n = .sys (.tick 1) := key 5 0 0 0 fun n => ⟨n, Nat.le_refl _, _, rfl, sys_possible rfl (by simp [Sys.step])⟩
    have hsh : ∀ n, ∃ x, (f n).sys.step x = some (f (n + 1)).sys ∧ Shadow (f n) (a n) x := fun n => engine_shadow (hE.moves n)
    choose x hx hxs using hsh
    intro T
    induction T with
    | zero => exact ⟨0, Nat.zero_le _⟩
    | succ T ih =>
      obtain ⟨n, hn⟩ := ih
      obtain ⟨m, hm', hm⟩ := htick n
      refine ⟨m + 1, ?_⟩
      have h1 : (f n).sys.now ≤ (f m).sys.now := now_mono (f := fun n => (f n).sys) hx hm'
      have h2 := hxs m
      rw [hm] at h2
      have h3 := hx m
      rw [h2.1] at h3
      simp only [Sys.step, Option.some.injEq] at h3
      rw [← h3]
      exact Nat.succ_le_succ (Nat.le_trans hn h1)
  · refine ⟨weak_of_strong (key 0 r 0 0), fun i => weak_of_strong (key 1 r i 0), fun i => key 2 r i 0, fun i => weak_of_strong (key 4 r i 0),
      fun i n => weak_of_strong (key 3 r i n), fun i n => ⟨acts.length, fun k hk line => ?_⟩⟩
    have := (hP k hk).2
    constructor <;> intro e <;> rw [e] at this <;> cases this

/-- **C123** Whatever has happened so far, all workflows that have been started can return together although no process does anything any
more, not even end, and without further workflows, cancellations or failures: steps whose processes hang are timed out. -/
theorem C123_hanging_processes_runs_can_return (setup : EngineSetup) (acts : List EngineAct) (E : LocalEngine) (h : EngineReach setup acts E)
    (ha : Apart (engineMoves acts)) (hk : EngineHooksKeepJobs setup acts) :
    ∃ more E', EngineReach setup (acts ++ more) E' ∧ Apart (engineMoves (acts ++ more)) ∧ EngineHooksKeepJobs setup (acts ++ more) ∧
      (∀ y ∈ more, withoutProcesses y = true) ∧
      ∀ (r : Nat) (ρ : SysRun), E.sys.runs[r]? = some ρ → UniqueJobs ρ.wf → OwnIds ρ.wf → DepsDefined ρ.wf → Acyclic ρ.wf → ρ.wf.jobs ≠ [] →
        ∃ ρ' res, E'.sys.runs[r]? = some ρ' ∧ ρ'.pc = .returned res := by
  obtain ⟨f, a, hE, hfirst, hfE, hA, hK, hgo, htime, hfair⟩ := C123_fair_futures setup acts E h ha hk
  have main : ∀ m, ∃ N, acts.length ≤ N ∧ ∀ r : Nat, r < m → ∀ ρ : SysRun, E.sys.runs[r]? = some ρ → UniqueJobs ρ.wf → OwnIds ρ.wf → DepsDefined ρ.wf →
      Acyclic ρ.wf → ρ.wf.jobs ≠ [] → ∃ (ρ' : SysRun) (res : WorkflowRunResult), (f N).sys.runs[r]? = some ρ' ∧ ρ'.pc = .returned res := by
    intro m
    induction m with
    | zero => exact ⟨acts.length, Nat.le_refl _, fun r hr => absurd hr (Nat.not_lt_zero r)⟩
    | succ m ih =>
      obtain ⟨N, hN, hall⟩ := ih
      by_cases hex : ∃ ρ : SysRun, E.sys.runs[m]? = some ρ ∧ UniqueJobs ρ.wf ∧ OwnIds ρ.wf ∧ DepsDefined ρ.wf ∧ Acyclic ρ.wf ∧ ρ.wf.jobs ≠ []
      · obtain ⟨ρ, hr, h1, h2, h3, h4, h5⟩ := hex
        obtain ⟨f1, f2, f3, f4, f5, f6⟩ := hfair m
        obtain ⟨n, ρ', res, hn, hr', hp⟩ := C123_silent_processes_runs_return setup f a hE hA hK m acts.length ρ (by rw [hfE]; exact hr)
          h1 h2 h3 h4 h5 f1 f2 f3 f4 f5 htime f6
        refine ⟨N + n, by omega, fun r hlt ρ1 g0 g1 g2 g3 g4 g5 => ?_⟩
        rcases Nat.lt_succ_iff_lt_or_eq.1 hlt with hlt | rfl
        · obtain ⟨ρ2, res2, e1, e2⟩ := hall r hlt ρ1 g0 g1 g2 g3 g4 g5
          obtain ⟨ρ3, e3, e4⟩ := engine_returned_stays hE e1 e2 n
          exact ⟨ρ3, res2, e3, e4⟩
        · obtain ⟨ρ3, e3, e4⟩ := engine_returned_stays hE hr' hp N
          rw [Nat.add_comm] at e3
          exact ⟨ρ3, res, e3, e4⟩
      · refine ⟨N, hN, fun r hlt ρ1 g0 g1 g2 g3 g4 g5 => ?_⟩
        rcases Nat.lt_succ_iff_lt_or_eq.1 hlt with hlt | rfl
        · exact hall r hlt ρ1 g0 g1 g2 g3 g4 g5
        · exact absurd ⟨ρ1, g0, g1, g2, g3, g4, g5⟩ hex
  obtain ⟨N, hN, hall⟩ := main E.sys.runs.length
  have e : acts ++ (firstMoves a N).drop acts.length = firstMoves a N := by
    have : acts = (firstMoves a N).take acts.length := by
      conv => lhs; rw [← hfirst]
      simp only [firstMoves, ← List.map_take, List.take_range, Nat.min_eq_left hN]
    conv => lhs; lhs; rw [this]
    exact List.take_append_drop _ _
  have hdrop : ∀ y ∈ (firstMoves a N).drop acts.length, withoutProcesses y = true := by
    intro y hy
    obtain ⟨k, hk, he⟩ := List.mem_iff_getElem.1 hy
    rw [← he]
    simp only [firstMoves, List.getElem_drop, List.getElem_map, List.getElem_range]
    exact hgo _ (by omega)
  refine ⟨(firstMoves a N).drop acts.length, f N, ?_⟩
  rw [e]
  exact ⟨endless_engine hE N, hA N, hK N, hdrop, fun r ρ hr => hall r (List.getElem?_eq_some_iff.1 hr).1 ρ hr⟩

set_option maxRecDepth 8000 in
/-- The hypotheses are met: in the middle of two workflows, with a container that has not ended, and never will. -/
example : ∃ E, EngineReach EngineEx.setup EngineEx.two E ∧ Apart (engineMoves EngineEx.two) ∧
    EngineHooksKeepJobs EngineEx.setup EngineEx.two ∧ ∃ ρ, E.sys.runs[1]? = some ρ ∧ (∀ res, ρ.pc ≠ .returned res) ∧
    UniqueJobs ρ.wf ∧ ρ.wf.jobs ≠ [] ∧ ∃ p l ch, (E.tasks 1 0)[0]? = some (p, l) ∧ l.child = some ch ∧ ch.exit = none := by
  refine ⟨EngineEx.after EngineEx.two, rfl, EngineEx.apart_two, EngineEx.keeps_two, _, rfl, ?_, ?_, ?_, _, _, _, rfl, rfl, rfl⟩
  · intro res hbad
    cases hbad
  · exact List.nodup_singleton "a"
  · intro hbad
    cases hbad

end AstroRun
