import Verif.Spec.FairLocal
import Verif.Props.Fair
import Verif.Props.LocalEngine
import Verif.Lemmas.LocalEngineAlone

/-! # C113: on the local runner, runs return when their processes end -/

namespace AstroRun
open Spec

namespace FairLocalLem
open FairLem

/-- What the engine itself does in a move. -/
def Shadow (E : LocalEngine) : EngineAct → SysAct → Prop
  | .sys b, x => x = b ∧ b.byRunner = false
  | .spawned r i _ _, x => x = .task r i .accept
  | .loc r i n b, x => x = .tick 0 ∨ ∃ b', x = .task r i b' ∧ (SysAct.task r i b').byRunner = true ∧ b.own = true ∧ n + 1 = (E.tasks r i).length

theorem tick_zero (M : Sys) : M.step (.tick 0) = some M := by simp [Sys.step]

theorem env_quiet {l l' : LocalRun} {b : LocalAct} (h : l.step b = some l') (hb : b.own = false) :
    l'.stream = l.stream := by
  cases b <;> simp only [LocalAct.own, reduceCtorEq] at hb <;> simp only [LocalRun.step] at h
  all_goals repeat' split at h
  all_goals first
    | (simp only [Option.some.injEq] at h; subst h; rfl)
    | simp at h

theorem engine_shadow {E E' : LocalEngine} {a : EngineAct} (h : E.step a = some E') : ∃ x, E.sys.step x = some E'.sys ∧ Shadow E a x := by
  cases a with
  | sys a =>
    simp only [LocalEngine.step] at h
    split at h
    · simp at h
    · rename_i hb
      simp only [Option.map_eq_some_iff] at h
      obtain ⟨M, hM, rfl⟩ := h
      exact ⟨a, hM, rfl, by simpa using hb⟩
  | spawned r i past envs =>
    simp only [LocalEngine.step] at h
    split at h
    · simp only [Option.map_eq_some_iff] at h
      obtain ⟨M, hM, rfl⟩ := h
      exact ⟨_, hM, rfl⟩
    · simp at h
  | loc r i n b =>
    simp only [LocalEngine.step] at h
    split at h
    · simp at h
    · rename_i b _ _ p l hget hne
      simp only [Option.map_eq_some_iff] at h
      obtain ⟨l', hl, rfl⟩ := h
      simp only
      cases ht : E.sys.jobTask r i with
      | none => exact ⟨.tick 0, tick_zero _, .inl rfl⟩
      | some t =>
        simp only [Option.map_some]
        by_cases hc : t.pc.reading = true ∧ n + 1 = (E.tasks r i).length
        · obtain ⟨hr, hn⟩ := hc
          have hc' : (t.pc.reading && n + 1 == (E.tasks r i).length) = true := by simp [hr, hn]
          simp only [hc', if_true]
          obtain ⟨ρ, hρ, htt⟩ := taskAt_some (show taskAt E.sys r i = some t from ht)
          cases hown : b.own with
          | false =>
            have hq := env_quiet hl hown
            rw [wrote_nothing (by rw [hq]) (by rw [hq])]
            exact ⟨.tick 0, tick_zero _, .inl rfl⟩
          | true =>
            rcases sys_absorb hρ htt hr hl with ⟨e1, _, _⟩ | ⟨b', st, e1, e2, _, _⟩
            · rw [e1]; exact ⟨.tick 0, tick_zero _, .inl rfl⟩
            · exact ⟨_, e2, .inr ⟨b', rfl, e1, hown, hn⟩⟩
        · have hc' : (t.pc.reading && n + 1 == (E.tasks r i).length) = false := by
            cases hr : t.pc.reading
            · rfl
            · simp [hr] at hc; simp [hc]
          simp only [hc', Bool.false_eq_true, if_false]
          exact ⟨.tick 0, tick_zero _, .inl rfl⟩
    · simp at h

/-- A task of the runner that moves. -/
theorem loc_moves {E E' : LocalEngine} {r i n : Nat} {b : LocalAct} (h : E.step (.loc r i n b) = some E') :
    ∃ p l l', (E.tasks r i)[n]? = some (p, l) ∧ l.step b = some l' ∧ (E'.tasks r i)[n]? = some (p, l') := by
  simp only [LocalEngine.step] at h
  split at h
  · simp at h
  · rename_i p l hget hne
    simp only [Option.map_eq_some_iff] at h
    obtain ⟨l', hl, rfl⟩ := h
    refine ⟨p, l, l', hget, hl, ?_⟩
    simp [updTasks, (List.getElem?_eq_some_iff.1 hget).1]
  · simp at h

theorem loc_possible {E : LocalEngine} {r i n : Nat} {b : LocalAct} {p : RunPlan} {l : LocalRun} (hg : (E.tasks r i)[n]? = some (p, l))
    (ho : b.own = true) (h : l.step b ≠ none) : E.step (.loc r i n b) ≠ none := by
  obtain ⟨l', hl⟩ := Option.ne_none_iff_exists'.1 h
  cases b <;> simp only [LocalAct.own, reduceCtorEq] at ho <;> simp [LocalEngine.step, hg, hl]

theorem work_share (l : LocalRun) (sg : SigState) : (l.shareSignal sg).work = l.work := by
  unfold LocalRun.shareSignal
  split <;> rfl

theorem endless_engine {setup : EngineSetup} {f : Nat → LocalEngine} {a : Nat → EngineAct} (h : EngineEndless setup f a) (n : Nat) :
    EngineReach setup (firstMoves a n) (f n) := by
  induction n with
  | zero => simp [EngineReach, firstMoves, runs, h.start]
  | succ n ih =>
    have : firstMoves a (n + 1) = firstMoves a n ++ [a n] := by simp [firstMoves, List.range_succ]
    rw [this]
    exact runs_snoc.2 ⟨f n, ih, h.moves n⟩

/-- A process that does not write gives its task nothing more to do. -/
theorem work_silent {l l' : LocalRun} {b : LocalAct} (h : l.step b = some l') (hb : b.own = false) (h1 : ∀ s, b ≠ .childOut s)
    (h2 : ∀ s, b ≠ .childErr s) : l'.work = l.work := by
  cases b <;> simp only [LocalAct.own, reduceCtorEq] at hb <;> simp only [LocalRun.step] at h
  case childOut s => exact absurd rfl (h1 s)
  case childErr s => exact absurd rfl (h2 s)
  case setSignal v => simp only [Option.some.injEq] at h; subst h; rfl
  all_goals
    split at h
    · rename_i ch hch
      first
        | (simp only [Option.some.injEq] at h; subst h; simp [LocalRun.work, unreadOut, unreadErr, hch]; done)
        | (split at h
           · simp only [Option.some.injEq] at h; subst h; simp [LocalRun.work, unreadOut, unreadErr, hch]
           · simp at h)
    · simp at h

/-- A process that is over does not write. -/
theorem over_silent {E E' : LocalEngine} {a : EngineAct} (hs : E.step a = some E') {r i n : Nat} {p : RunPlan} {l : LocalRun}
    (hg : (E.tasks r i)[n]? = some (p, l)) (ho : ProcessOver l) (s : String) : a ≠ .loc r i n (.childOut s) ∧ a ≠ .loc r i n (.childErr s) := by
  unfold ProcessOver at ho
  constructor <;> rintro rfl <;> simp only [LocalEngine.step, hg, Option.map_eq_some_iff, LocalRun.step] at hs <;>
    obtain ⟨l', hl, _⟩ := hs <;> cases hch : l.child with
      | none => simp [hch] at hl
      | some ch => obtain ⟨o1, o2, o3⟩ := ho ch hch; simp [hch, o2, o3] at hl

/-- What a move leaves of the work of a runner's task whose process does not write. -/
theorem task_quiet {E E' : LocalEngine} {a : EngineAct} (hs : E.step a = some E') {r i n : Nat} {p : RunPlan} {l : LocalRun} {k : Nat}
    (hg : (E.tasks r i)[n]? = some (p, l)) (hok : OutOk p k l)
    (hq : ∀ s, a ≠ .loc r i n (.childOut s) ∧ a ≠ .loc r i n (.childErr s)) :
    ∃ l', (E'.tasks r i)[n]? = some (p, l') ∧ l'.work ≤ l.work ∧ ∀ b, a = .loc r i n b → b.own = true → l'.work < l.work := by
  cases a with
  | sys x =>
    simp only [LocalEngine.step] at hs
    split at hs
    · simp at hs
    · simp only [Option.map_eq_some_iff] at hs
      obtain ⟨M, hM, rfl⟩ := hs
      by_cases hx : ∃ c, x = .task r i c
      · obtain ⟨c, rfl⟩ := hx
        simp only [LocalEngine.shared]
        cases M.jobTask r i with
        | some t =>
          simp only
          split
          · simp only [updTasks, and_self, if_true, List.getElem?_modify, hg]
            refine ⟨if (E.tasks r i).length - 1 = n then l.shareSignal t.sig else l, ?_, ?_, by simp⟩
            · split <;> rfl
            · split <;> simp [work_share]
          · exact ⟨l, hg, Nat.le_refl _, by simp⟩
        | none => exact ⟨l, hg, Nat.le_refl _, by simp⟩
      · refine ⟨l, ?_, Nat.le_refl _, by simp⟩
        rw [← hg]
        exact congrArg (·[n]?) (shared_other fun c hc => hx ⟨c, hc⟩)
  | spawned r' i' past envs =>
    simp only [LocalEngine.step] at hs
    split at hs
    · simp only [Option.map_eq_some_iff] at hs
      obtain ⟨M, hM, rfl⟩ := hs
      refine ⟨l, ?_, Nat.le_refl _, by simp⟩
      simp only [updTasks]
      split
      · rw [List.getElem?_append_left (List.getElem?_eq_some_iff.1 hg).1]; exact hg
      · exact hg
    · simp at hs
  | loc r' i' n' b =>
    simp only [LocalEngine.step] at hs
    split at hs
    · simp at hs
    · rename_i b _ _ p' l1 hget hne
      simp only [Option.map_eq_some_iff] at hs
      obtain ⟨l2, hl, rfl⟩ := hs
      simp only [updTasks]
      by_cases he : r = r' ∧ i = i'
      · obtain ⟨rfl, rfl⟩ := he
        simp only [and_self, if_true]
        by_cases hn : n' = n
        · subst hn
          rw [hg] at hget
          simp only [Option.some.injEq, Prod.mk.injEq] at hget
          obtain ⟨rfl, rfl⟩ := hget
          refine ⟨l2, by simp [(List.getElem?_eq_some_iff.1 hg).1], ?_, ?_⟩
          · rcases Bool.eq_false_or_eq_true b.own with hb | hb
            · exact Nat.le_of_lt (work_step hok hb hl)
            · exact Nat.le_of_eq (work_silent hl hb (fun s e => (hq s).1 (by rw [e])) fun s e => (hq s).2 (by rw [e]))
          · intro b' hb hown
            cases hb
            exact work_step hok hown hl
        · refine ⟨l, by rw [List.getElem?_set_ne hn]; exact hg, Nat.le_refl _, ?_⟩
          intro b' hb _
          simp only [EngineAct.loc.injEq, true_and] at hb
          exact absurd hb.1 hn
      · refine ⟨l, by simp [he, hg], Nat.le_refl _, ?_⟩
        intro b' hb _
        simp only [EngineAct.loc.injEq] at hb
        exact absurd ⟨hb.1.symm, hb.2.1.symm⟩ he
    · simp at hs

/-- What a move leaves of the work of a runner's task whose process is over. -/
theorem task_work {E E' : LocalEngine} {a : EngineAct} (hs : E.step a = some E') {r i n : Nat} {p : RunPlan} {l : LocalRun} {k : Nat}
    (hg : (E.tasks r i)[n]? = some (p, l)) (hok : OutOk p k l) (ho : ProcessOver l) :
    ∃ l', (E'.tasks r i)[n]? = some (p, l') ∧ l'.work ≤ l.work ∧ ∀ b, a = .loc r i n b → b.own = true → l'.work < l.work :=
  task_quiet hs hg hok (over_silent hs hg ho)

/-- A step whose stream is read is read until it ends. -/
theorem reading_stays {g g' : SigMgr} {ρ ρ' : SysRun} {now : Time} {i : Nat} {t t' : SysTask} {b : TaskAct} (ht : ρ.tasks[i]? = some t)
    (hs : Sys.taskStep g ρ now i t b = some (g', ρ')) (ht' : ρ'.tasks[i]? = some t') (hr : t.pc.reading = true)
    (ha : t'.pc.runnerActive = true) : t'.pc.reading = true := by
  obtain ⟨u, h1, _, _, _, _, _, _, _, _, hc⟩ := taskStep_frame hs
  have hu : t' = u := by
    rw [h1, List.getElem?_set] at ht'
    simp [(List.getElem?_eq_some_iff.1 ht).1] at ht'
    exact ht'.symm
  subst hu
  rcases hc with ⟨e, es, k, hpc, rfl, _⟩ | ⟨k, hpc, rfl, _⟩ | ⟨s, t0, ref, hpc, rfl, _⟩ | ⟨s, t0, hpc, rfl, _⟩ |
    ⟨s, t0, d, ref, sg, hpc, rfl, _⟩ | ⟨r, hpc, rfl, _⟩ | ⟨hs, _⟩
  · rw [hpc] at hr; cases k <;> first | rfl | cases hr
  · rw [hpc] at hr; cases k <;> first | rfl | cases hr
  · rw [hpc] at hr; cases hr
  · rw [hpc] at hr; cases hr
  · rfl
  · rw [hpc] at hr; cases hr
  · cases b <;> simp only [SysTask.step] at hs
    case push | endStream =>
      split at hs
      · cases hs; exact hr
      · simp at hs
    case recv =>
      split at hs
      · split at hs
        · cases hs; rfl
        · split at hs
          · cases hs; cases ha
          · simp at hs
        · simp at hs
      · simp at hs
    all_goals
      first
        | (simp at hs; done)
        | (split at hs
           · rename_i hpc
             first
               | (rw [hpc] at hr; cases hr; done)
               | (cases hs; rfl)
               | (split at hs
                  · cases hs; rfl
                  · simp at hs)
           · simp at hs)
        | (split at hs
           · rename_i hpc _
             rw [hpc] at hr; cases hr
           · simp at hs)

/-- One move, seen by a job task that is executing a step and its runner. -/
theorem pair_reading {cfg : LocalSetup} {t t' : SysTask} {ts ts' : List (RunPlan × LocalRun)} (h : PairMove cfg (some t) ts (some t') ts')
    (hr : t.pc.reading = true) (ha : t'.pc.runnerActive = true) : t'.pc.reading = true ∧ ts'.length = ts.length := by
  generalize ho : some t = o at h
  generalize ho' : some t' = o' at h
  cases h with
  | same => cases ho; cases ho'; exact ⟨hr, rfl⟩
  | born => cases ho
  | eng g g' ρ ρ' now i r b u u' _ hb hu hs hu' =>
    cases ho; cases ho'
    refine ⟨reading_stays hu hs hu' hr ha, ?_⟩
    split <;> simp
  | spawned u _ st t0 ref hpc => cases ho; rw [hpc] at hr; cases hr
  | other => cases ho; cases ho'; exact ⟨hr, by simp⟩
  | wrote => cases ho; cases ho'; exact ⟨hr, by simp⟩

theorem pair_some {cfg : LocalSetup} {t : SysTask} {o' : Option SysTask} {ts ts' : List (RunPlan × LocalRun)} (h : PairMove cfg (some t) ts o' ts') :
    ∃ t', o' = some t' := by
  generalize ho : some t = o at h
  cases h with
  | same => exact ⟨t, ho.symm⟩
  | born => cases ho
  | other => exact ⟨t, ho.symm⟩
  | _ => exact ⟨_, rfl⟩

theorem taskNow_iff {f : Nat → LocalEngine} {r i n : Nat} {t : SysTask} :
    TaskNow (fun n => (f n).sys) r i n t ↔ taskAt (f n).sys r i = some t := by
  unfold TaskNow taskAt
  rw [Option.bind_eq_some_iff]

theorem active_cases {pc : SysPc} (h : pc.runnerActive = true) (hn : pc.reading = false) : ∃ s t0 ref, pc = .calling s t0 ref := by
  unfold SysPc.runnerActive at h
  split at h
  · exact ⟨_, _, _, rfl⟩
  all_goals first | (simp [SysPc.reading] at hn; done) | cases h

/-- The runner answers a call. -/
theorem spawned_possible {E : LocalEngine} {r i : Nat} {t : SysTask} (ht : taskAt E.sys r i = some t) {s : Step} {t0 : Time} {ref : Nat}
    (hpc : t.pc = .calling s t0 ref) : E.step (.spawned r i (fun _ => []) []) ≠ none := by
  obtain ⟨ρ, h1, h2⟩ := taskAt_some ht
  simp [LocalEngine.step, jobTask_eq, ht, hpc, Sys.step, h1, h2, Sys.taskStep, SysTask.step]

theorem sys_possible {E : LocalEngine} {x : SysAct} (hb : x.byRunner = false) (h : E.sys.step x ≠ none) : E.step (.sys x) ≠ none := by
  simpa [LocalEngine.step, hb] using h

/-- Who does the engine's work when the runner is the local one. -/
theorem job_possible {E : LocalEngine} {r i : Nat} {x : SysAct} (hx : workOf r i x) (h : E.sys.step x ≠ none) :
    ∃ y, engineJobOf r i y ∧ E.step y ≠ none := by
  rcases Bool.eq_false_or_eq_true x.byRunner with hb | hb
  · obtain ⟨b, rfl, _⟩ := workOf_iff.1 hx
    obtain ⟨M, hM⟩ := Option.ne_none_iff_exists'.1 h
    rcases sys_step_cases hM with ⟨wf, h1, _⟩ | ⟨n, b', ρ₁, ρ₂, h1, _⟩ |
          ⟨n, j, b', ρ, t, g', ρ', h1, hρ, htt, hmm, _⟩ | ⟨n, h1, _⟩ | ⟨j, x, h1, _⟩
    all_goals cases h1
    have hT : taskAt E.sys r i = some t := by simp [taskAt, hρ, htt]
    have hc : ∃ s t0 ref, t.pc = .calling s t0 ref := by
      cases b <;> simp [SysAct.byRunner] at hb <;> simp only [workOf, SysAct.task.injEq, true_and, exists_eq_left'] at hx
      all_goals
        simp only [Sys.taskStep, SysTask.step] at hmm
        split at hmm
        · exact ⟨_, _, _, by assumption⟩
        · simp at hmm
    obtain ⟨s, t0, ref, hpc⟩ := hc
    exact ⟨_, .inr ⟨_, _, rfl⟩, spawned_possible hT hpc⟩
  · exact ⟨.sys x, .inl ⟨x, rfl, hx⟩, sys_possible hb h⟩

theorem firstMoves_succ {α : Type} (a : Nat → α) (n : Nat) : firstMoves a (n + 1) = firstMoves a n ++ [a n] := by
  simp [firstMoves, List.range_succ]

/-- The engine's moves, with the moves of the runner's that write to the engine. -/
theorem shadow_moves {f : Nat → LocalEngine} {a : Nat → EngineAct} {x : Nat → SysAct} (h : ∀ n, Shadow (f n) (a n) (x n)) (n : Nat) :
    started (firstMoves x n) = started (engineMoves (firstMoves a n)) ∧
    ∀ r i b s, SysAct.task r i (.nextStep b s) ∈ firstMoves x n → SysAct.task r i (.nextStep b s) ∈ engineMoves (firstMoves a n) := by
  induction n with
  | zero => exact ⟨rfl, fun r i b s hm => by simp [firstMoves] at hm⟩
  | succ n ih =>
    rw [firstMoves_succ, firstMoves_succ, engineMoves_snoc]
    obtain ⟨h1, h2⟩ := ih
    have hn := h n
    cases ha : a n with
    | sys b =>
      rw [ha] at hn
      obtain ⟨hx, _⟩ := hn
      rw [hx]
      refine ⟨by simp only [EngineAct.engPart, started, List.filterMap_append] at h1 ⊢; rw [h1], fun r i b s hm => ?_⟩
      simp only [EngineAct.engPart, List.mem_append] at hm ⊢
      exact hm.imp_left (h2 r i b s)
    | spawned r i past envs =>
      rw [ha] at hn
      have hx : x n = _ := hn
      rw [hx]
      refine ⟨by simp only [EngineAct.engPart, started, List.filterMap_append, List.append_nil] at h1 ⊢; rw [h1]; simp, fun r i b s hm => ?_⟩
      simp only [EngineAct.engPart, List.mem_append, List.append_nil, List.mem_singleton, SysAct.task.injEq, reduceCtorEq, and_false, or_false] at hm ⊢
      exact h2 r i b s hm
    | loc r i k b =>
      rw [ha] at hn
      have hq : (∃ q, x n = .tick q) ∨ ∃ b', x n = .task r i b' ∧ (SysAct.task r i b').byRunner = true := by
        rcases hn with hn | ⟨b', h1, h2, _⟩
        · exact .inl ⟨0, hn⟩
        · exact .inr ⟨b', h1, h2⟩
      rcases hq with ⟨q, hx⟩ | ⟨b', hx, hb⟩
      · rw [hx]
        refine ⟨by simp only [EngineAct.engPart, started, List.filterMap_append, List.append_nil] at h1 ⊢; rw [h1]; simp, fun r i b s hm => ?_⟩
        simp only [EngineAct.engPart, List.mem_append, List.append_nil, List.mem_singleton, reduceCtorEq, or_false] at hm ⊢
        exact h2 r i b s hm
      · rw [hx]
        refine ⟨by simp only [EngineAct.engPart, started, List.filterMap_append, List.append_nil] at h1 ⊢; rw [h1]; simp, fun r' i' b s hm => ?_⟩
        simp only [EngineAct.engPart, List.mem_append, List.append_nil, List.mem_singleton] at hm ⊢
        rcases hm with hm | hm
        · exact h2 r' i' b s hm
        · rw [← hm] at hb; cases hb

/-- On the local runner: a run returns if the runner does its duty for it. -/
theorem local_returns (setup : EngineSetup) (f : Nat → LocalEngine) (a : Nat → EngineAct) (hE : EngineEndless setup f a)
    (hap : ∀ n, Apart (engineMoves (firstMoves a n))) (hk : ∀ n, EngineHooksKeepJobs setup (firstMoves a n)) (r n0 : Nat) (ρ0 : SysRun)
    (hr0 : (f n0).sys.runs[r]? = some ρ0) (hu : UniqueJobs ρ0.wf) (ho : OwnIds ρ0.wf) (hd : DepsDefined ρ0.wf) (hac : Acyclic ρ0.wf)
    (hne : ρ0.wf.jobs ≠ []) (hmain : WeaklyFair LocalEngine.step f a (engineMainOf r))
    (hjob : ∀ i, WeaklyFair LocalEngine.step f a (engineJobOf r i)) (hrecv : ∀ i, StronglyFair LocalEngine.step f a (engineRecvOf r i))
    (hrun : ∀ x : Nat → SysAct, (∀ n, (f n).sys.step (x n) = some (f (n + 1)).sys) → (∀ n, Shadow (f n) (a n) (x n)) →
      RunnerEnds (fun n => (f n).sys) x r) :
    ∃ n ρ res, n0 ≤ n ∧ (f n).sys.runs[r]? = some ρ ∧ ρ.pc = .returned res := by
  have hsh : ∀ n, ∃ x, (f n).sys.step x = some (f (n + 1)).sys ∧ Shadow (f n) (a n) x := fun n => engine_shadow (hE.moves n)
  choose x hx hxs using hsh
  have hE' : Endless (fun n => (f n).sys) x := ⟨by simp [hE.start, LocalEngine.initial], hx⟩
  refine C112_fair_runs_return (fun n => (f n).sys) x hE' ?_ ?_ r n0 ρ0 hr0 hu ho hd hac hne ?_ ?_ ?_ ?_
  · intro n
    obtain ⟨h1, h2⟩ := shadow_moves hxs n
    have := hap n
    exact ⟨h1 ▸ this.distinct, h1 ▸ this.own, fun r i b s hm => h1 ▸ this.hooks r i b s (h2 r i b s hm)⟩
  · intro n
    induction n with
    | zero => intro pre r i b s post he; simp [firstMoves] at he
    | succ n ih =>
      rw [firstMoves_succ]
      refine ih.snoc (endless_reach hE' n) ?_
      intro r i b s he ρ t h1 h2
      have hs := hxs n
      cases ha : a n with
      | sys y =>
        rw [ha] at hs
        have := hs.1
        rw [he] at this
        subst this
        have := hk (n + 1)
        rw [firstMoves_succ, ha] at this
        exact this (firstMoves a n) r i b s [] rfl (f n) (endless_engine hE n) t (by simp only [taskAt]; rw [h1]; exact h2)
      | spawned r' i' past envs =>
        rw [ha] at hs
        have : x n = _ := hs
        rw [he] at this; simp at this
      | loc r' i' k b' =>
        rw [ha] at hs
        rcases hs with hs | ⟨b'', h3, h4, _⟩
        · rw [he] at hs; cases hs
        · rw [he] at h3
          rw [← h3] at h4; cases h4
  · -- the main task
    intro hf
    have := hmain (by
      obtain ⟨n, hn⟩ := hf
      refine ⟨n, fun m hm => ?_⟩
      obtain ⟨y, ⟨b, rfl⟩, hp⟩ := hn m hm
      exact ⟨_, ⟨b, rfl⟩, sys_possible rfl hp⟩)
    intro n
    obtain ⟨m, hm, b, hb⟩ := this n
    have hs := hxs m
    rw [hb] at hs
    exact ⟨m, hm, b, hs.1⟩
  · -- the job tasks
    intro i hf
    have := hjob i (by
      obtain ⟨n, hn⟩ := hf
      refine ⟨n, fun m hm => ?_⟩
      obtain ⟨y, hy, hp⟩ := hn m hm
      exact job_possible hy hp)
    intro n
    obtain ⟨m, hm, hc⟩ := this n
    have hs := hxs m
    refine ⟨m, hm, ?_⟩
    rcases hc with ⟨y, hb, hw⟩ | ⟨past, envs, hb⟩
    · rw [hb] at hs
      show workOf r i (x m)
      rw [hs.1]; exact hw
    · rw [hb] at hs
      show workOf r i (x m)
      rw [show x m = _ from hs]
      exact workOf_iff.2 ⟨_, rfl, trivial⟩
  · -- their `select!`
    intro i hf
    have := hrecv i (by
      intro n
      obtain ⟨m, hm, y, hy, hp⟩ := hf n
      have hy : y = _ := hy
      subst hy
      exact ⟨m, hm, _, rfl, sys_possible rfl hp⟩)
    intro n
    obtain ⟨m, hm, hc⟩ := this n
    have hs := hxs m
    rw [show a m = _ from hc] at hs
    exact ⟨m, hm, hs.1⟩
  · exact hrun x hx hxs

/-- A job task that stays within one step from some point on reads, from some point on, the stream of the task the runner spawned
last for it. -/
theorem reads_forever (setup : EngineSetup) (f : Nat → LocalEngine) (a : Nat → EngineAct) (hE : EngineEndless setup f a) (r i m : Nat)
    (t : SysTask) (hjob : WeaklyFair LocalEngine.step f a (engineJobOf r i))
    (x : Nat → SysAct) (hx : ∀ n, (f n).sys.step (x n) = some (f (n + 1)).sys) (hxs : ∀ n, Shadow (f n) (a n) (x n))
    (ht : taskAt (f m).sys r i = some t)
    (hact : ∀ k t, m ≤ k → taskAt (f k).sys r i = some t → t.pc.runnerActive = true) :
    ∃ m1 L, m ≤ m1 ∧ ∀ k, m1 ≤ k → ∃ t p l la, taskAt (f k).sys r i = some t ∧ t.pc.reading = true ∧ ((f k).tasks r i)[L]? = some (p, l) ∧
          LocalReach p setup.plugins.length la l ∧ l.stream.result = t.stream.result ∧ l.sig.signal = t.sig.signal ∧ L + 1 = ((f k).tasks r i).length := by
  have hinv : ∀ n, EngineInv setup (firstMoves a n) (f n) := fun n => engineInv_reach (endless_engine hE n)
  have hpair : ∀ n r i, PairMove (forRun setup r) (taskAt (f n).sys r i) ((f n).tasks r i) (taskAt (f (n + 1)).sys r i) ((f (n + 1)).tasks r i) := by
    intro n r i
    have := (engine_move (hE.moves n)).2.2 r i
    rwa [(hinv n).same] at this
  have hev : ∀ k, m ≤ k → ∃ t, taskAt (f k).sys r i = some t := by
    intro k hk
    induction k with
    | zero => have : m = 0 := Nat.le_zero.1 hk; rw [this] at ht; exact ⟨t, ht⟩
    | succ k ih =>
      rcases Nat.lt_or_ge k m with h | h
      · have : m = k + 1 := by omega
        rw [this] at ht; exact ⟨t, ht⟩
      · obtain ⟨u, hu⟩ := ih h
        have := hpair k r i
        rw [hu] at this
        exact pair_some this
  -- the runner answers
  obtain ⟨m1, t1, hm1, ht1, hr1⟩ : ∃ m1 t1, m ≤ m1 ∧ taskAt (f m1).sys r i = some t1 ∧ t1.pc.reading = true := by
    apply Classical.byContradiction
    intro hno
    have hcall : ∀ k t, m ≤ k → taskAt (f k).sys r i = some t → ∃ s t0 ref, t.pc = .calling s t0 ref := by
      intro k t hk ht
      refine active_cases (hact k t hk ht) ?_
      cases hq : t.pc.reading with
      | false => rfl
      | true => exact absurd ⟨k, t, hk, ht, hq⟩ hno
    obtain ⟨k, hk, hc⟩ := hjob ⟨m, fun k hk => by
      obtain ⟨u, hu⟩ := hev k hk
      obtain ⟨s, t0, ref, hpc⟩ := hcall k u hk hu
      exact ⟨_, .inr ⟨_, _, rfl⟩, spawned_possible hu hpc⟩⟩ m
    obtain ⟨u, hu⟩ := hev k hk
    obtain ⟨s, t0, ref, hpc⟩ := hcall k u hk hu
    have hmv := hE.moves k
    obtain ⟨ρ, hρ, htt⟩ := taskAt_some hu
    rcases hc with ⟨y, hy, hw⟩ | ⟨past, envs, hy⟩
    · rw [hy] at hmv
      obtain ⟨b, rfl, hb⟩ := workOf_iff.1 hw
      cases b <;> simp [LocalEngine.step, SysAct.byRunner, Sys.step, hρ, htt, Sys.taskStep, SysTask.step, hpc, FairLem.isWork] at hmv hb
    · have hs := hxs k
      rw [hy] at hs
      have hs : x k = _ := hs
      have hstep := hx k
      rw [hs] at hstep
      simp only [Sys.step, hρ, htt, Sys.taskStep, SysTask.step, hpc, Option.map_some, bind, Option.bind_some, pure, Option.some.injEq] at hstep
      obtain ⟨u', hu'⟩ := hev (k + 1) (by omega)
      obtain ⟨s', t0', ref', hpc'⟩ := hcall (k + 1) u' (by omega) hu'
      rw [← hstep] at hu'
      simp [taskAt, SysRun.setTask, (List.getElem?_eq_some_iff.1 hρ).1, (List.getElem?_eq_some_iff.1 htt).1, SysTask.emitThen] at hu'
      rw [← hu'] at hpc'
      cases hpc'
  -- the step is read from now on
  have hread : ∀ k, m1 ≤ k → ∃ t, taskAt (f k).sys r i = some t ∧ t.pc.reading = true ∧ ((f k).tasks r i).length = ((f m1).tasks r i).length := by
    intro k hk
    induction k with
    | zero => have : m1 = 0 := Nat.le_zero.1 hk; subst this; exact ⟨t1, ht1, hr1, rfl⟩
    | succ k ih =>
      rcases Nat.lt_or_ge k m1 with h | h
      · have : m1 = k + 1 := by omega
        subst this; exact ⟨t1, ht1, hr1, rfl⟩
      · obtain ⟨u, hu, h2, h3⟩ := ih h
        obtain ⟨u', hu'⟩ := hev (k + 1) (by omega)
        have hp := hpair k r i
        rw [hu, hu'] at hp
        obtain ⟨q1, q2⟩ := pair_reading hp h2 (hact (k + 1) u' (by omega) hu')
        exact ⟨u', hu', q1, q2.trans h3⟩
  have hlink : ∀ k t, m1 ≤ k → taskAt (f k).sys r i = some t → t.pc.reading = true →
      ∃ p l la, ((f k).tasks r i)[((f m1).tasks r i).length - 1]? = some (p, l) ∧ LocalReach p setup.plugins.length la l ∧
        l.stream.result = t.stream.result ∧ l.sig.signal = t.sig.signal ∧ ((f m1).tasks r i).length - 1 + 1 = ((f k).tasks r i).length := by
    intro k t hk ht hr
    have hp := (hinv k).pairs r i
    rw [ht] at hp
    have hp : PairInv (forRun setup r) t ((f k).tasks r i) := hp
    obtain ⟨st, D, p, l, H, a1, a2, a3, a4, a5, a6, _⟩ := hp.link hr
    obtain ⟨u, hu, _, hlen⟩ := hread k hk
    have hL : ((f m1).tasks r i).length - 1 = D.length := by rw [← hlen, a2]; simp
    have hg : ((f k).tasks r i)[D.length]? = some (p, l) := by rw [a2]; simp
    obtain ⟨la, hla⟩ := hp.reach _ p l hg
    exact ⟨p, l, la, by rw [hL]; exact hg, hla, a5, a6, by rw [hL, a2]; simp⟩
  generalize hLdef : ((f m1).tasks r i).length - 1 = L at hlink
  have hgetL : ∀ k, m1 ≤ k → ∃ t p l la, taskAt (f k).sys r i = some t ∧ t.pc.reading = true ∧ ((f k).tasks r i)[L]? = some (p, l) ∧
      LocalReach p setup.plugins.length la l ∧ l.stream.result = t.stream.result ∧ l.sig.signal = t.sig.signal ∧ L + 1 = ((f k).tasks r i).length := by
    intro k hk
    obtain ⟨t, ht, hr, _⟩ := hread k hk
    obtain ⟨p, l, la, h1, h2, h3, h4, h5⟩ := hlink k t hk ht hr
    exact ⟨t, p, l, la, ht, hr, h1, h2, h3, h4, h5⟩
  exact ⟨m1, L, hm1, hgetL⟩

end FairLocalLem

open FairLem FairLocalLem

/-- **C113** An engine on the local runner, in any endless execution, whatever its users, its other workflows and the operating system do:
if the main task and the job tasks of a run are not starved, the `select!` of a step does not ignore its stream forever, the
runner's tasks for the run are not starved and the processes they start end (and close their output), then the run returns. -/
theorem C113_processes_end_runs_return (setup : EngineSetup) (f : Nat → LocalEngine) (a : Nat → EngineAct) (hE : EngineEndless setup f a)
    (hap : ∀ n, Apart (engineMoves (firstMoves a n))) (hk : ∀ n, EngineHooksKeepJobs setup (firstMoves a n)) (r n0 : Nat) (ρ0 : SysRun)
    (hr0 : (f n0).sys.runs[r]? = some ρ0) (hu : UniqueJobs ρ0.wf) (ho : OwnIds ρ0.wf) (hd : DepsDefined ρ0.wf) (hac : Acyclic ρ0.wf)
    (hne : ρ0.wf.jobs ≠ []) (hmain : WeaklyFair LocalEngine.step f a (engineMainOf r))
    (hjob : ∀ i, WeaklyFair LocalEngine.step f a (engineJobOf r i)) (hrecv : ∀ i, StronglyFair LocalEngine.step f a (engineRecvOf r i))
    (htask : ∀ i n, WeaklyFair LocalEngine.step f a (runnerTaskOf r i n)) (hproc : ProcessesEnd f r) :
    ∃ n ρ res, n0 ≤ n ∧ (f n).sys.runs[r]? = some ρ ∧ ρ.pc = .returned res := by
  refine local_returns setup f a hE hap hk r n0 ρ0 hr0 hu ho hd hac hne hmain hjob hrecv ?_
  intro x hx hxs i n hact
  have hact : ∀ m t, n ≤ m → taskAt (f m).sys r i = some t → t.pc.runnerActive = true := fun m t hm ht => hact m t hm (taskNow_iff.2 ht)
  by_cases hex : ∃ m t, n ≤ m ∧ taskAt (f m).sys r i = some t
  · obtain ⟨m, t, hm, ht⟩ := hex
    obtain ⟨m1, L, hm1, hgetL⟩ := reads_forever setup f a hE r i m t (hjob i) x hx hxs ht fun k t hk ht => hact k t (by omega) ht
    -- its process ends
    obtain ⟨N, hN⟩ := hproc i L
    have hstop : ∃ K, m1 ≤ K ∧ N ≤ K ∧ ∀ k b, K ≤ k → b.own = true → a k ≠ .loc r i L b := by
      apply Classical.byContradiction
      intro hno
      let w : Nat → Nat := fun k => ((((f k).tasks r i)[L]?).map fun y => y.2.work).getD 0
      have hw : ∀ k, m1 + N ≤ k → w (k + 1) ≤ w k ∧ ∀ b, a k = .loc r i L b → b.own = true → w (k + 1) < w k := by
        intro k hk
        obtain ⟨t, p, l, la, _, _, hg, hla, _⟩ := hgetL k (by omega)
        obtain ⟨l', h1, h2, h3⟩ := task_work (hE.moves k) hg (local_reach hla).2 (hN k (by omega) p l hg)
        simp only [w, hg, h1, Option.map_some, Option.getD_some]
        exact ⟨h2, h3⟩
      refine no_descent w (m1 + N) (fun k hk => (hw k hk).1) ?_
      intro k hk
      apply Classical.byContradiction
      intro hnd
      refine hno ⟨k, by omega, by omega, fun j b hj hb he => hnd ⟨j, hj, (hw j (by omega)).2 b he hb⟩⟩
    obtain ⟨K, hK1, hK2, hK⟩ := hstop
    -- its task can do nothing more at some time
    obtain ⟨m2, hm2, hstuck⟩ : ∃ m2, K ≤ m2 ∧ ¬ Possible LocalEngine.step f (runnerTaskOf r i L) m2 := by
      apply Classical.byContradiction
      intro hno
      obtain ⟨k, hk, b, hb, h1, _⟩ := htask i L ⟨K, fun k hk => Classical.byContradiction fun hp => hno ⟨k, hk, hp⟩⟩ K
      exact hK k b hk h1 hb
    obtain ⟨t, p, l, la, ht, hr, hg, hla, hres, _, _⟩ := hgetL m2 (by omega)
    obtain ⟨res, hres'⟩ := C63_ends p _ la l hla (by
      intro b h1 h2
      cases hb : l.step b with
      | none => rfl
      | some l' => exact absurd ⟨.loc r i L b, ⟨b, rfl, h1, h2⟩, loc_possible hg h1 (by rw [hb]; simp)⟩ hstuck) (hN m2 (by omega) p l hg)
    refine ⟨m2, by omega, ?_, ?_⟩
    · intro u hu
      rw [taskNow_iff, ht] at hu
      cases hu
      rw [← hres, hres']; simp
    · intro k lg hk he
      have hs := hxs k
      rw [he] at hs
      cases ha : a k with
      | sys y => rw [ha] at hs; obtain ⟨h1, h2⟩ := hs; rw [← h1] at h2; cases h2
      | spawned r' i' past envs =>
        rw [ha] at hs
        have hs : SysAct.task r i (.push lg) = .task r' i' .accept := hs
        simp at hs
      | loc r' i' n' b =>
        rw [ha] at hs
        rcases hs with hs | ⟨b', h1, _, h3, h4⟩
        · cases hs
        · simp only [SysAct.task.injEq] at h1
          obtain ⟨rfl, rfl, _⟩ := h1
          obtain ⟨_, _, _, _, _, _, _, _, _, _, hlen⟩ := hgetL k (by omega)
          have : n' = L := by omega
          subst this
          exact hK k b (by omega) h3 ha
  · refine ⟨n, Nat.le_refl _, fun t ht => absurd ⟨n, t, Nat.le_refl _, taskNow_iff.1 ht⟩ hex, ?_⟩
    intro k l hk he
    have := hx k
    rw [he] at this
    obtain ⟨_, t, _, _, ht, _⟩ := task_act this
    exact hex ⟨k, t, hk, ht⟩

/-- A schedule after which nothing of run `r` is left to do and whose processes for `r` are over, continued by the clock. -/
theorem FairLocalLem.idle_forever {setup : EngineSetup} {acts : List EngineAct} {E : LocalEngine} (h : EngineReach setup acts E)
    (ha : Apart (engineMoves acts)) (hk : EngineHooksKeepJobs setup acts) {r : Nat} (hs : RunStuck E r)
    (hover : ∀ i p l, (p, l) ∈ E.tasks r i → ProcessOver l) :
    ∃ f a, EngineEndless setup f a ∧ (∀ n, Apart (engineMoves (firstMoves a n))) ∧ (∀ n, EngineHooksKeepJobs setup (firstMoves a n)) ∧
      WeaklyFair LocalEngine.step f a (engineMainOf r) ∧ (∀ i, WeaklyFair LocalEngine.step f a (engineJobOf r i)) ∧
      (∀ i, StronglyFair LocalEngine.step f a (engineRecvOf r i)) ∧ (∀ i n, WeaklyFair LocalEngine.step f a (runnerTaskOf r i n)) ∧
      ProcessesEnd f r ∧ ∀ n, EngineReach setup (acts.take n) (f n) := by
  let a : Nat → EngineAct := fun n => acts.getD n (.sys (.tick 0))
  let f : Nat → LocalEngine := fun n => (runs LocalEngine.step (LocalEngine.initial setup) (acts.take n)).getD (LocalEngine.initial setup)
  have hpre : ∀ n, runs LocalEngine.step (LocalEngine.initial setup) (acts.take n) = some (f n) := by
    intro n
    have : runs LocalEngine.step (LocalEngine.initial setup) (acts.take n ++ acts.drop n) = some E := by rw [List.take_append_drop]; exact h
    obtain ⟨s0, h0, _⟩ := runs_split this
    simp [f, h0]
  have hlate : ∀ n, acts.length ≤ n → f n = E := by
    intro n hn
    have := hpre n
    rw [List.take_of_length_le hn] at this
    exact Option.some.inj (this.symm.trans h)
  have htick : ∀ n, acts.length ≤ n → a n = .sys (.tick 0) := by
    intro n hn
    simp [a, List.getD_eq_getElem?_getD, List.getElem?_eq_none hn]
  have hE : EngineEndless setup f a := by
    refine ⟨by simp [f, runs], fun n => ?_⟩
    rcases Nat.lt_or_ge n acts.length with hn | hn
    · have h1 := hpre (n + 1)
      rw [List.take_succ_eq_append_getElem hn] at h1
      obtain ⟨s0, h2, h3⟩ := runs_snoc.1 h1
      rw [hpre n] at h2
      cases h2
      have : a n = acts[n] := by simp [a, List.getD_eq_getElem?_getD, List.getElem?_eq_getElem hn]
      rw [this]; exact h3
    · rw [hlate n hn, hlate (n + 1) (by omega), htick n hn]
      simp [LocalEngine.step, SysAct.byRunner, tick_zero, LocalEngine.shared]
  have hfirst : ∀ n, n ≤ acts.length → firstMoves a n = acts.take n := by
    intro n hn
    refine List.ext_getElem (by simp [firstMoves]; omega) ?_
    intro k h1 h2
    have hk : k < n := by simpa [firstMoves] using h1
    have hk' : k < acts.length := by omega
    simp [firstMoves, a, List.getD_eq_getElem?_getD, List.getElem?_eq_getElem hk']
  have hstay : ∀ n, Apart (engineMoves (firstMoves a n)) ∧ EngineHooksKeepJobs setup (firstMoves a n) := by
    intro n
    induction n with
    | zero =>
      have e : firstMoves a 0 = [] := rfl
      rw [e]
      exact ⟨⟨by simp [started, engineMoves], by simp [started, engineMoves], by simp [engineMoves]⟩, by intro pre r i b s post he; simp at he⟩
    | succ n ih =>
      rcases Nat.lt_or_ge n acts.length with hn | hn
      · have e2 : firstMoves a (n + 1) ++ acts.drop (n + 1) = acts := by
          rw [hfirst _ hn, List.take_append_drop]
        have e3 : engineMoves (firstMoves a (n + 1)) ++ engineMoves (acts.drop (n + 1)) = engineMoves acts := by
          conv => rhs; rw [← e2]
          simp [engineMoves, List.filterMap_append]
        exact ⟨Apart.prefix (e3 ▸ ha), keepJobs_prefix (e2.symm ▸ hk)⟩
      · rw [firstMoves_succ, htick n hn]
        refine ⟨by rw [engineMoves_snoc]; exact ih.1.snoc (by simp) (by simp), ?_⟩
        intro pre r i b s post he E' hE' t ht
        rcases List.eq_nil_or_concat post with rfl | ⟨post', y, rfl⟩
        · obtain ⟨_, hx⟩ := List.append_inj' he rfl
          simp at hx
        · have he' : firstMoves a n ++ [.sys (.tick 0)] = (pre ++ EngineAct.sys (.task r i (.nextStep b s)) :: post') ++ [y] := by
            rw [he]; simp
          obtain ⟨e1, _⟩ := List.append_inj' he' rfl
          exact ih.2 pre r i b s post' e1 E' hE' t ht
  have hnot : ∀ (c : EngineAct → Prop), (∀ y, c y → E.step y = none) → ∀ n, acts.length ≤ n → ¬ Possible LocalEngine.step f c n := by
    rintro c hc n hn ⟨y, hy, h1⟩
    rw [hlate n hn] at h1
    exact h1 (hc y hy)
  have hmax : ∀ n, acts.length ≤ n + acts.length := by omega
  refine ⟨f, a, hE, fun n => (hstay n).1, fun n => (hstay n).2, ?_, ?_, ?_, ?_, ?_, hpre⟩
  · rintro ⟨n, hn⟩
    exact absurd (hn _ (Nat.le_add_right n acts.length)) (hnot _ (by rintro y ⟨b, rfl⟩; exact hs.engine _ rfl) _ (hmax n))
  · rintro i ⟨n, hn⟩
    refine absurd (hn _ (Nat.le_add_right n acts.length)) (hnot _ ?_ _ (hmax n))
    rintro y (⟨z, rfl, hz⟩ | ⟨past, envs, rfl⟩)
    · obtain ⟨b, rfl, _⟩ := workOf_iff.1 hz
      exact hs.engine _ rfl
    · exact hs.runner i past envs
  · intro i hi
    obtain ⟨m, hm, hp⟩ := hi acts.length
    exact absurd hp (hnot _ (by rintro y rfl; exact hs.engine _ rfl) _ hm)
  · rintro i k ⟨n, hn⟩
    exact absurd (hn _ (Nat.le_add_right n acts.length)) (hnot _ (by rintro y ⟨b, rfl, h1, h2⟩; exact hs.tasks i k b h1 h2) _ (hmax n))
  · intro i n
    refine ⟨acts.length, fun m hm p l hl => ?_⟩
    rw [hlate m hm] at hl
    exact hover i p l (List.mem_of_getElem? hl)

set_option maxRecDepth 8000 in
/-- The hypotheses are met: by a run that has not returned, next to one whose container never ends. -/
example : ∃ f a n0 ρ0, EngineEndless EngineEx.setup f a ∧ (∀ n, Apart (engineMoves (firstMoves a n))) ∧
    (∀ n, EngineHooksKeepJobs EngineEx.setup (firstMoves a n)) ∧ (f n0).sys.runs[0]? = some ρ0 ∧ (∀ res, ρ0.pc ≠ .returned res) ∧
    UniqueJobs ρ0.wf ∧ OwnIds ρ0.wf ∧ DepsDefined ρ0.wf ∧ Acyclic ρ0.wf ∧ ρ0.wf.jobs ≠ [] ∧
    WeaklyFair LocalEngine.step f a (engineMainOf 0) ∧ (∀ i, WeaklyFair LocalEngine.step f a (engineJobOf 0 i)) ∧
    (∀ i, StronglyFair LocalEngine.step f a (engineRecvOf 0 i)) ∧ (∀ i n, WeaklyFair LocalEngine.step f a (runnerTaskOf 0 i n)) ∧
    ProcessesEnd f 0 := by
  obtain ⟨f, a, h1, h2, h3, h4, h5, h6, h7, h8, h9⟩ := idle_forever (setup := EngineEx.setup) (acts := EngineEx.two)
    (E := EngineEx.after EngineEx.two) rfl EngineEx.apart_two EngineEx.keeps_two EngineEx.stuck_two (by
      intro i p l hl ch hch
      cases i with
      | zero =>
        obtain ⟨x, hx, hx2⟩ : ∃ x, (EngineEx.after EngineEx.two).tasks 0 0 = [x] ∧ ProcessOver x.2 :=
          ⟨_, rfl, fun ch h => by cases h; exact ⟨rfl, rfl, rfl⟩⟩
        rw [hx] at hl
        obtain rfl := List.mem_singleton.1 hl
        exact hx2 ch hch
      | succ i =>
        rw [show (EngineEx.after EngineEx.two).tasks 0 (i + 1) = [] from rfl] at hl
        simp at hl)
  have hf : f 1 = EngineEx.after (EngineEx.two.take 1) := by
    have := h9 1
    unfold EngineReach at this
    simp only [EngineEx.after, this, Option.getD_some]
  refine ⟨f, a, 1, { wf := SystemEx.single "v" }, h1, h2, h3, by rw [hf]; rfl, by simp, List.nodup_singleton "a", ⟨?_, ?_⟩, ?_,
    SystemEx.single_acyclic "v", by decide, h4, h5, h6, h7, h8⟩
  · intro k j k' j' h h' _
    have e : ∀ k j, (k, j) ∈ (SystemEx.single "v").jobs → k = "a" := by
      intro k j h; simp [SystemEx.single] at h; exact h.1
    exact (e k j h).trans (e k' j' h').symm
  · intro k j h s hs
    have : (k, j) ∈ (SystemEx.single "v").jobs := h
    simp [SystemEx.single] at this
    obtain ⟨rfl, rfl⟩ := this
    simp at hs
    subst hs
    rfl
  · intro k j h d hd
    have : (k, j) ∈ (SystemEx.single "v").jobs := h
    simp [SystemEx.single] at this
    obtain ⟨rfl, rfl⟩ := this
    simp at hd

end AstroRun
