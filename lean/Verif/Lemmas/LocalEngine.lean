import Verif.Spec.LocalEngine
import Verif.Lemmas.LocalStack
import Verif.Lemmas.TimingExact
import Verif.Props.LocalRun

/-! # Lemmas: an engine on the local runner -/

namespace AstroRun
open Spec

/-- What one move does to a job task and the tasks the runner has spawned for it. -/
inductive PairMove (cfg : LocalSetup) : Option SysTask → List (RunPlan × LocalRun) → Option SysTask → List (RunPlan × LocalRun) → Prop
  | same (o ts) : PairMove cfg o ts o ts
  | born (k : Id) (j : Job) (ts) : PairMove cfg none ts (some { key := k, job := j }) ts
  | eng (g g' : SigMgr) (ρ ρ' : SysRun) (now : Time) (i r : Nat) (b : TaskAct) (t t' : SysTask) (ts)
      (hb : (SysAct.task r i b).byRunner = false) (ht : ρ.tasks[i]? = some t) (hs : Sys.taskStep g ρ now i t b = some (g', ρ'))
      (ht' : ρ'.tasks[i]? = some t') :
      PairMove cfg (some t) ts (some t')
        (if t'.pc.reading then ts.modify (ts.length - 1) (fun x => (x.1, x.2.shareSignal t'.sig)) else ts)
  | spawned (t : SysTask) (ts) (st : Step) (t0 : Time) (ref : Nat) (hpc : t.pc = .calling st t0 ref) (p : RunPlan) (hp : PlanFor cfg st p) :
      PairMove cfg (some t) ts (some (t.emitThen [.stepState st.id .inProgress] (.handling st t0 ref)))
        (ts ++ [(p, LocalRun.initial p cfg.plugins.length)])
  | other (o) (ts) (n : Nat) (a : LocalAct) (p : RunPlan) (l l' : LocalRun) (hget : ts[n]? = some (p, l))
      (ha : ∀ v, a ≠ .setSignal v) (hs : l.step a = some l') (ho : ∀ t, o = some t → t.pc.reading = true → n + 1 ≠ ts.length) :
      PairMove cfg o ts o (ts.set n (p, l'))
  | wrote (t : SysTask) (ts) (n : Nat) (a : LocalAct) (p : RunPlan) (l l' : LocalRun) (hget : ts[n]? = some (p, l))
      (ha : ∀ v, a ≠ .setSignal v) (hs : l.step a = some l') (hr : t.pc.reading = true) (hn : n + 1 = ts.length)
      (st : StreamState)
      (hst : l.stream.logs = t.stream.logs → l.stream.result = t.stream.result →
        st.logs = l'.stream.logs ∧ st.result = l'.stream.result ∧ st.index = t.stream.index) :
      PairMove cfg (some t) ts (some { t with stream := st }) (ts.set n (p, l'))

theorem jobTask_eq (M : Sys) (r i : Nat) : M.jobTask r i = taskAt M r i := rfl

theorem taskAt_some {M : Sys} {r i : Nat} {t : SysTask} (h : taskAt M r i = some t) :
    ∃ ρ, M.runs[r]? = some ρ ∧ ρ.tasks[i]? = some t := Option.bind_eq_some_iff.1 h

/-- Job tasks other than the one that moves. -/
theorem taskAt_set_ne {M : Sys} {g : SigMgr} {r i r' i' : Nat} {ρ ρ' : SysRun} {t' : SysTask} (hρ : M.runs[r]? = some ρ)
    (ht : ρ'.tasks = ρ.tasks.set i t') (hne : ¬ (r' = r ∧ i' = i)) :
    taskAt { M with mgr := g, runs := M.runs.set r ρ' } r' i' = taskAt M r' i' := by
  unfold taskAt
  simp only [List.getElem?_set]
  by_cases hr : r = r'
  · subst hr
    have : r < M.runs.length := (List.getElem?_eq_some_iff.1 hρ).1
    simp only [this, if_true, Option.bind_some, hρ, ht]
    rw [List.getElem?_set_ne (by intro e; exact hne ⟨rfl, e.symm⟩)]
  · simp [hr]

/-- Job tasks after a move of the engine that is not theirs. -/
theorem taskAt_main {M M' : Sys} {a : SysAct} (h : M.step a = some M') (hn : ∀ r i b, a ≠ .task r i b) (r i : Nat) :
    taskAt M' r i = taskAt M r i ∨ taskAt M r i = none ∧ ∃ k j, taskAt M' r i = some { key := k, job := j } := by
  rcases sys_step_cases h with ⟨wf, rfl, rfl⟩ | ⟨n, b, ρ₁, ρ₂, rfl, hρ, hm, rfl⟩ |
    ⟨n, j, b, ρ, t, g', ρ', h1, hρ, htt, hmm, rfl⟩ | ⟨n, rfl, rfl⟩ | ⟨j, x, rfl, rfl⟩
  · left
    unfold taskAt
    simp only [List.getElem?_append]
    split
    · rfl
    · rename_i hlt
      have : M.runs[r]? = none := by simpa using hlt
      rw [this]
      cases hk : r - M.runs.length <;> simp
  · unfold taskAt
    simp only [List.getElem?_set]
    by_cases hr : n = r
    · subst hr
      have : n < M.runs.length := (List.getElem?_eq_some_iff.1 hρ).1
      simp only [this, if_true, Option.bind_some, hρ]
      obtain ⟨es, hes⟩ := main_fresh hm
      rw [hes, List.getElem?_append]
      split
      · exact .inl rfl
      · rename_i hlt
        have h0 : ρ₁.tasks[i]? = none := by simpa using hlt
        rw [h0]
        cases hk : (List.map (fun e : Id × Job => ({ key := e.1, job := e.2 } : SysTask)) es)[i - ρ₁.tasks.length]? with
        | none => exact .inl rfl
        | some x =>
          right
          simp only [List.getElem?_map, Option.map_eq_some_iff] at hk
          obtain ⟨e, _, rfl⟩ := hk
          exact ⟨rfl, _, _, rfl⟩
    · simp [hr]
  · exact absurd h1 (hn _ _ _)
  · exact .inl rfl
  · exact .inl rfl

theorem reading_active {pc : SysPc} (h : pc.reading = true) : pc.runnerActive = true := by
  unfold SysPc.reading at h
  split at h <;> first | rfl | cases h

theorem push_task {M : Sys} {r i : Nat} {ρ : SysRun} {t : SysTask} (hρ : M.runs[r]? = some ρ) (ht : ρ.tasks[i]? = some t)
    (ha : t.pc.runnerActive = true) (x : Log) :
    M.step (.task r i (.push x)) = some { M with runs := M.runs.set r (ρ.setTask i { t with stream := (t.stream.push x).1 }) } := by
  simp [Sys.step, hρ, ht, Sys.taskStep, SysTask.step, ha]

theorem end_task {M : Sys} {r i : Nat} {ρ : SysRun} {t : SysTask} (hρ : M.runs[r]? = some ρ) (ht : ρ.tasks[i]? = some t)
    (ha : t.pc.runnerActive = true) (x : RunResult) :
    M.step (.task r i (.endStream x)) = some { M with runs := M.runs.set r (ρ.setTask i { t with stream := (t.stream.endSeq x).1 }) } := by
  simp [Sys.step, hρ, ht, Sys.taskStep, SysTask.step, ha]

/-- What the engine absorbs. -/
theorem sys_absorb {M : Sys} {r i : Nat} {ρ : SysRun} {t : SysTask} (hρ : M.runs[r]? = some ρ) (ht : ρ.tasks[i]? = some t)
    (hr : t.pc.reading = true) {l l' : LocalRun} {a : LocalAct} (hs : l.step a = some l') :
    (M.absorb r i (l.wrote l') = M ∧ l'.stream.logs = l.stream.logs ∧ l'.stream.result = l.stream.result) ∨
    ∃ b st, (SysAct.task r i b).byRunner = true ∧ M.step (.task r i b) = some (M.absorb r i (l.wrote l')) ∧
      M.absorb r i (l.wrote l') = { M with runs := M.runs.set r (ρ.setTask i { t with stream := st }) } ∧
      (l.stream.logs = t.stream.logs → l.stream.result = t.stream.result →
        st.logs = l'.stream.logs ∧ st.result = l'.stream.result ∧ st.index = t.stream.index) := by
  have ha := reading_active hr
  cases wrote_step hs with
  | log x h1 h2 =>
    right
    rw [wrote_log h1]
    have e := push_task hρ ht ha x
    refine ⟨.push x, (t.stream.push x).1, rfl, ?_, ?_, fun e1 e2 => ⟨?_, ?_, rfl⟩⟩
    · simp [Sys.absorb, e]
    · simp [Sys.absorb, e]
    · rw [h1, e1]; rfl
    · rw [h2, e2]; rfl
  | ended x h1 h0 h2 =>
    right
    rw [wrote_ended h1 h0 h2]
    have e := end_task hρ ht ha x
    refine ⟨.endStream x, (t.stream.endSeq x).1, rfl, ?_, ?_, fun e1 e2 => ⟨?_, ?_, ?_⟩⟩
    · simp [Sys.absorb, e]
    · simp [Sys.absorb, e]
    · rw [endSeq_logs_eq, h1, e1]
    · rw [endSeq_result_none (by rw [← e2]; exact h0), h2]
    · simp only [StreamState.endSeq]; split <;> rfl
  | nothing h1 h2 =>
    left
    rw [wrote_nothing h1 h2]
    exact ⟨rfl, h1, h2⟩

/-- The moves of the engine hidden in a move. -/
def Hidden (a : EngineAct) (sa : List SysAct) : Prop :=
  match a with
  | .sys b => b.byRunner = false ∧ sa = [b]
  | _ => ∀ b ∈ sa, b.byRunner = true

/-- One move, seen by any job task. -/
theorem engine_move {E E' : LocalEngine} {a : EngineAct} (h : E.step a = some E') :
    E'.setup = E.setup ∧
    (∃ sa, Hidden a sa ∧ runs Sys.step E.sys sa = some E'.sys) ∧
    ∀ r i, PairMove (forRun E.setup r) (taskAt E.sys r i) (E.tasks r i) (taskAt E'.sys r i) (E'.tasks r i) := by
  cases a with
  | sys a =>
    simp only [LocalEngine.step] at h
    split at h
    · simp at h
    · rename_i hb
      simp only [Option.map_eq_some_iff] at h
      obtain ⟨M, hM, rfl⟩ := h
      refine ⟨rfl, ⟨[a], ⟨by simpa using hb, rfl⟩, by simp [runs, hM]⟩, fun r i => ?_⟩
      by_cases hta : ∃ r i b, a = .task r i b
      · obtain ⟨r0, i0, b, rfl⟩ := hta
        simp only
        rcases sys_step_cases hM with ⟨wf, h1, _⟩ | ⟨n, b', ρ₁, ρ₂, h1, _⟩ |
          ⟨n, j, b', ρ, t, g', ρ', h1, hρ, htt, hmm, rfl⟩ | ⟨n, h1, _⟩ | ⟨j, x, h1, _⟩
        all_goals cases h1
        obtain ⟨t', e1, _⟩ := taskStep_frame hmm
        have hi := (List.getElem?_eq_some_iff.1 htt).1
        have ht' : ρ'.tasks[i0]? = some t' := by rw [e1]; simp [hi]
        have hT : taskAt { E.sys with mgr := g', runs := E.sys.runs.set r0 ρ' } r0 i0 = some t' := by
          simp [taskAt, (List.getElem?_eq_some_iff.1 hρ).1, ht']
        have hT0 : taskAt E.sys r0 i0 = some t := by simp [taskAt, hρ, htt]
        by_cases hri : r = r0 ∧ i = i0
        · obtain ⟨rfl, rfl⟩ := hri
          have : E.shared { E.sys with mgr := g', runs := E.sys.runs.set r ρ' } (.task r i b) r i =
              if t'.pc.reading then (E.tasks r i).modify ((E.tasks r i).length - 1) (fun x => (x.1, x.2.shareSignal t'.sig))
              else E.tasks r i := by
            simp only [LocalEngine.shared, jobTask_eq, hT]
            split <;> simp [updTasks]
          rw [this, hT, hT0]
          exact .eng _ g' ρ ρ' E.sys.now i r b t t' _ (by simpa using hb) htt hmm ht'
        · rw [taskAt_set_ne hρ e1 hri]
          have : E.shared { E.sys with mgr := g', runs := E.sys.runs.set r0 ρ' } (.task r0 i0 b) r i = E.tasks r i := by
            simp only [LocalEngine.shared, jobTask_eq, hT]
            split
            · simp [updTasks, hri]
            · rfl
          rw [this]
          exact .same _ _
      · have hsh : E.shared M a = E.tasks := by
          cases a <;> first | rfl | exact absurd ⟨_, _, _, rfl⟩ hta
        simp only [hsh]
        rcases taskAt_main hM (fun r i b e => hta ⟨r, i, b, e⟩) r i with e | ⟨e1, k, j, e2⟩
        · rw [e]; exact .same _ _
        · rw [e1, e2]; exact .born k j _
  | spawned r0 i0 past envs =>
    simp only [LocalEngine.step] at h
    split at h
    · rename_i st t0 ref hpc
      simp only [Option.map_eq_some_iff] at h
      obtain ⟨M, hM, rfl⟩ := h
      refine ⟨rfl, ⟨[.task r0 i0 .accept], by simp [Hidden, SysAct.byRunner], by simp [runs, hM]⟩, fun r i => ?_⟩
      simp only [Option.map_eq_some_iff] at hpc
      obtain ⟨t, ht, hpc⟩ := hpc
      obtain ⟨ρ, hρ, htt⟩ := taskAt_some ht
      have hM' : M = { E.sys with runs := E.sys.runs.set r0 (ρ.setTask i0 (t.emitThen [.stepState st.id .inProgress] (.handling st t0 ref))) } := by
        simp [Sys.step, hρ, htt, Sys.taskStep, SysTask.step, hpc] at hM
        exact hM.symm
      have hi := (List.getElem?_eq_some_iff.1 htt).1
      by_cases hri : r = r0 ∧ i = i0
      · obtain ⟨rfl, rfl⟩ := hri
        have hT : taskAt M r i = some (t.emitThen [.stepState st.id .inProgress] (.handling st t0 ref)) := by
          rw [hM']
          simp [taskAt, (List.getElem?_eq_some_iff.1 hρ).1, SysRun.setTask, hi]
        simp only [hT]
        rw [show taskAt E.sys r i = some t from ht]
        simp only [updTasks, and_self, if_true]
        exact .spawned t _ st t0 ref hpc _ ⟨past, E.mem, envs, rfl⟩
      · have : taskAt M r i = taskAt E.sys r i := by
          rw [hM']
          exact taskAt_set_ne (g := E.sys.mgr) hρ rfl hri
        simp only [this, updTasks, hri, if_false]
        exact .same _ _
    · simp at h
  | loc r0 i0 n b =>
    simp only [LocalEngine.step] at h
    split at h
    · simp at h
    · rename_i p l hget hne
      simp only [Option.map_eq_some_iff] at h
      obtain ⟨l', hl, rfl⟩ := h
      refine ⟨rfl, ?_⟩
      simp only
      cases ht : E.sys.jobTask r0 i0 with
      | none =>
        refine ⟨⟨[], by simp [Hidden], rfl⟩, fun r i => ?_⟩
        simp only [Option.map_none]
        by_cases hri : r = r0 ∧ i = i0
        · obtain ⟨rfl, rfl⟩ := hri
          simp only [updTasks, and_self, if_true]
          exact .other _ _ n _ p l l' hget (fun v e => hne v e) hl (fun t e => by rw [← jobTask_eq, ht] at e; cases e)
        · simp only [updTasks, hri, if_false]
          exact .same _ _
      | some t =>
        simp only [Option.map_some]
        obtain ⟨ρ, hρ, htt⟩ := taskAt_some (show taskAt E.sys r0 i0 = some t from ht)
        have hi := (List.getElem?_eq_some_iff.1 htt).1
        by_cases hc : t.pc.reading = true ∧ n + 1 = (E.tasks r0 i0).length
        · obtain ⟨hr, hn⟩ := hc
          have hc' : (t.pc.reading && n + 1 == (E.tasks r0 i0).length) = true := by simp [hr, hn]
          simp only [hc', if_true]
          rcases sys_absorb hρ htt hr hl with ⟨e1, e2, e3⟩ | ⟨b', st, e1, e2, e3, e4⟩
          · rw [e1]
            refine ⟨⟨[], by simp [Hidden], rfl⟩, fun r i => ?_⟩
            by_cases hri : r = r0 ∧ i = i0
            · obtain ⟨rfl, rfl⟩ := hri
              simp only [updTasks, and_self, if_true]
              rw [show taskAt E.sys r i = some t from ht]
              exact .wrote t _ n _ p l l' hget (fun v e => hne v e) hl hr hn t.stream
                (fun k1 k2 => ⟨by rw [e2, k1], by rw [e3, k2], rfl⟩)
            · simp only [updTasks, hri, if_false]
              exact .same _ _
          · refine ⟨⟨[.task r0 i0 b'], by simp [Hidden, e1], by simp [runs, e2]⟩, fun r i => ?_⟩
            rw [e3]
            by_cases hri : r = r0 ∧ i = i0
            · obtain ⟨rfl, rfl⟩ := hri
              have hT : taskAt { E.sys with runs := E.sys.runs.set r (ρ.setTask i { t with stream := st }) } r i =
                  some { t with stream := st } := by
                simp [taskAt, (List.getElem?_eq_some_iff.1 hρ).1, SysRun.setTask, hi]
              simp only [updTasks, and_self, if_true]
              rw [show taskAt E.sys r i = some t from ht, hT]
              exact .wrote t _ n _ p l l' hget (fun v e => hne v e) hl hr hn st e4
            · rw [taskAt_set_ne (g := E.sys.mgr) hρ rfl hri]
              simp only [updTasks, hri, if_false]
              exact .same _ _
        · have hc' : (t.pc.reading && n + 1 == (E.tasks r0 i0).length) = false := by
            cases hr : t.pc.reading
            · rfl
            · simp [hr] at hc; simp [hc]
          simp only [hc', Bool.false_eq_true, if_false]
          refine ⟨⟨[], by simp [Hidden], rfl⟩, fun r i => ?_⟩
          by_cases hri : r = r0 ∧ i = i0
          · obtain ⟨rfl, rfl⟩ := hri
            simp only [updTasks, and_self, if_true]
            refine .other _ _ n _ p l l' hget (fun v e => hne v e) hl (fun t' e hr hn => ?_)
            rw [show taskAt E.sys r i = some t from ht] at e
            cases e
            exact hc ⟨hr, hn⟩
          · simp only [updTasks, hri, if_false]
            exact .same _ _
    · simp at h

/-! ## What job tasks and their runner tasks have in common -/

/-- After the end of its stream, a task writes nothing more to it. -/
theorem stream_final {l l' : LocalRun} {a : LocalAct} (hres : ResOk l) {x : RunResult} (hx : l.stream.result = some x)
    (hs : l.step a = some l') : l'.stream.logs = l.stream.logs ∧ l'.stream.result = some x := by
  have he : ∀ y, (l.stream.endSeq y).1.logs = l.stream.logs ∧ (l.stream.endSeq y).1.result = some x :=
    fun y => ⟨endSeq_logs_eq _ _, by rw [endSeq_result_some hx]; exact hx⟩
  have hn : l.pc ≠ .select .reading := by
    intro e
    simp only [ResOk, e] at hres
    rw [hres.1] at hx
    cases hx
  cases a <;> simp only [LocalRun.step] at hs
  all_goals
    repeat' (split at hs)
    all_goals simp only [Option.some.injEq, reduceCtorEq] at hs
    all_goals subst hs
    all_goals first
      | exact ⟨rfl, hx⟩
      | exact he _
      | (exact absurd (by assumption) hn)
      | (simp only; split <;> first | exact ⟨rfl, hx⟩ | exact he _)

/-- Steps that have ended: what was reported of them, the tasks that executed them and their results. -/
structure EndedAll (cfg : LocalSetup) (H : List (Command × List Log)) (D : List (RunPlan × LocalRun)) (R : List StepRunResult) : Prop where
  reported : H.length = D.length
  results : R.length = D.length
  each : ∀ (n : Nat) (p : RunPlan) (l : LocalRun), D[n]? = some (p, l) → ∃ (st : Step) (x : RunResult) (r : StepRunResult),
    H[n]? = some (st.toCommand, l.stream.logs) ∧ R[n]? = some r ∧ PlanFor cfg st p ∧ l.stream.result = some x ∧ r.id = st.id ∧ Reports x r

theorem EndedAll.nil (cfg : LocalSetup) : EndedAll cfg [] [] [] := ⟨rfl, rfl, fun n p l h => by simp at h⟩

theorem EndedAll.snoc {cfg : LocalSetup} {H : List (Command × List Log)} {D : List (RunPlan × LocalRun)} {R : List StepRunResult}
    (h : EndedAll cfg H D R) {st : Step} {p : RunPlan} {l : LocalRun} {x : RunResult} {r : StepRunResult} (h1 : PlanFor cfg st p)
    (h2 : l.stream.result = some x) (h3 : r.id = st.id) (h4 : Reports x r) :
    EndedAll cfg (H ++ [(st.toCommand, l.stream.logs)]) (D ++ [(p, l)]) (R ++ [r]) := by
  refine ⟨by simp [h.reported], by simp [h.results], fun n q k hn => ?_⟩
  have e1 := h.reported
  have e2 := h.results
  rw [List.getElem?_append] at hn
  split at hn
  · rename_i hlt
    obtain ⟨st', x', r', a1, a2, a3⟩ := h.each n q k hn
    exact ⟨st', x', r', by rw [List.getElem?_append_left (by omega)]; exact a1,
      by rw [List.getElem?_append_left (by omega)]; exact a2, a3⟩
  · rename_i hlt
    have hn0 : n = D.length := by
      cases hk : n - D.length with
      | zero => omega
      | succ m => simp [hk] at hn
    subst hn0
    simp only [Nat.sub_self, List.getElem?_cons_zero, Option.some.injEq, Prod.mk.injEq] at hn
    obtain ⟨rfl, rfl⟩ := hn
    exact ⟨st, x, r, by rw [← e1]; simp, by rw [← e2]; simp, h1, h2, h3, h4⟩

theorem EndedAll.set {cfg : LocalSetup} {H : List (Command × List Log)} {D : List (RunPlan × LocalRun)} {R : List StepRunResult}
    (h : EndedAll cfg H D R) {n : Nat} {p : RunPlan} {l l' : LocalRun} {a : LocalAct} (hget : D[n]? = some (p, l)) (hr : ResOk l)
    (hs : l.step a = some l') : EndedAll cfg H (D.set n (p, l')) R := by
  refine ⟨by simp [h.reported], by simp [h.results], fun m q k hm => ?_⟩
  rw [List.getElem?_set] at hm
  split at hm
  · rename_i e
    subst e
    split at hm
    · cases hm
      obtain ⟨st, x, r, a1, a2, a3, a4, a5⟩ := h.each n p l hget
      obtain ⟨b1, b2⟩ := stream_final hr a4 hs
      exact ⟨st, x, r, by rw [b1]; exact a1, a2, a3, b2, a5⟩
    · cases hm
  · exact h.each m q k hm

theorem handedOver_append (xs : List Event) (e : Event) : handedOver (xs ++ [e]) = noteHandedOver (handedOver xs) e := by
  simp [handedOver, List.foldl_append]

/-- Notifications that `handedOver` does not see. -/
def otherEvent : Event → Bool
  | .runnerRun _ | .log _ _ => false
  | _ => true

theorem handedOver_other {xs es : List Event} (h : ∀ e ∈ es, otherEvent e = true) : handedOver (xs ++ es) = handedOver xs := by
  induction es generalizing xs with
  | nil => simp
  | cons e es ih =>
    have : xs ++ e :: es = (xs ++ [e]) ++ es := by simp
    rw [this, ih (fun x hx => h x (by simp [hx])), handedOver_append]
    have := h e (by simp)
    cases e <;> first | rfl | simp [otherEvent] at this

/-- Where a task that issues notifications goes on. -/
def SysPc.afterEmit : SysPc → Bool
  | .next | .queued _ _ | .handling _ _ _ | .finished _ => true
  | _ => false

/-- A job task and the runner's tasks for it. -/
structure PairInv (cfg : LocalSetup) (t : SysTask) (ts : List (RunPlan × LocalRun)) : Prop where
  reach : ∀ (n : Nat) (p : RunPlan) (l : LocalRun), ts[n]? = some (p, l) → ∃ la, LocalReach p cfg.plugins.length la l
  init : t.pc = .init → t.results = [] ∧ t.evs = []
  form : ∀ es k, t.pc = .emitting es k → k.afterEmit = true ∧ (∀ c, Event.runnerRun c ∉ es)
  quiet : stepOf t.pc = none → ∀ e ∈ t.pc.pend, otherEvent e = true
  idle : stepOf t.pc = none → EndedAll cfg (handedOver (t.evs ++ t.pc.pend)) ts (executedSteps t.results)
  calling : ∀ st t0 ref, t.pc = .calling st t0 ref → t.stream = {} ∧ t.sig = {} ∧
    ∃ H, handedOver (t.evs ++ t.pc.pend) = H ++ [(st.toCommand, [])] ∧ EndedAll cfg H ts (executedSteps t.results)
  link : t.pc.reading = true → ∃ st D p l H, stepOf t.pc = some st ∧ ts = D ++ [(p, l)] ∧ PlanFor cfg st p ∧
    l.stream.logs = t.stream.logs ∧ l.stream.result = t.stream.result ∧ l.sig.signal = t.sig.signal ∧
    t.stream.index ≤ t.stream.logs.length ∧
    handedOver (t.evs ++ t.pc.pend) = H ++ [(st.toCommand, t.stream.logs.take t.stream.index)] ∧
    EndedAll cfg H D (executedSteps t.results)

theorem reading_stepOf {pc : SysPc} (h : pc.reading = true) : ∃ st, stepOf pc = some st := by
  unfold SysPc.reading at h
  split at h <;> first | exact ⟨_, rfl⟩ | cases h

theorem stepOf_cases {pc : SysPc} {st : Step} (h : stepOf pc = some st) : pc.reading = true ∨ ∃ t0 ref, pc = .calling st t0 ref := by
  unfold stepOf at h
  split at h <;> cases h
  · exact .inr ⟨_, _, rfl⟩
  · exact .inl rfl
  · exact .inl rfl
  · exact .inl rfl

/-- The runner's tasks after the engine has moved, its own task not reading: nothing changes. -/
theorem PairInv.fresh (cfg : LocalSetup) (k : Id) (j : Job) : PairInv cfg { key := k, job := j } [] := by
  refine ⟨fun n p l h => by simp at h, fun _ => ⟨rfl, rfl⟩, fun es k h => by simp at h, fun _ e he => by simp [SysPc.pend] at he, fun _ => EndedAll.nil _,
    fun st t0 ref h => by simp at h, fun h => by simp [SysPc.reading] at h⟩

/-- An idle task stays idle, announcing nothing new of any step. -/
theorem PairInv.idle_move {cfg : LocalSetup} {t t' : SysTask} {ts : List (RunPlan × LocalRun)} (h : PairInv cfg t ts)
    (h0 : stepOf t.pc = none) (h1 : stepOf t'.pc = none) (hr : executedSteps t'.results = executedSteps t.results)
    (he : ∃ es, t'.evs ++ t'.pc.pend = t.evs ++ t.pc.pend ++ es ∧ ∀ e ∈ es, otherEvent e = true)
    (hi : t'.pc ≠ .init) (hf : ∀ es k, t'.pc = .emitting es k → k.afterEmit = true ∧ (∀ c, Event.runnerRun c ∉ es))
    (hq : ∀ e ∈ t'.pc.pend, otherEvent e = true) : PairInv cfg t' ts := by
  obtain ⟨es, e1, e2⟩ := he
  refine ⟨h.reach, fun e => absurd e hi, hf, fun _ => hq, fun _ => ?_, fun st t0 ref e => ?_, fun e => ?_⟩
  · rw [hr, e1, handedOver_other e2]
    exact h.idle h0
  · rw [e] at h1; cases h1
  · obtain ⟨st, hst⟩ := reading_stepOf e
    rw [hst] at h1; cases h1

/-- The signal of the task spawned last after the engine's move. -/
theorem share_signal_of {l : LocalRun} {sg sg' : SigState} (h : l.sig.signal = sg.signal)
    (hm : ∀ v, sg.signal = some v → sg'.signal = some v) : (l.shareSignal sg').sig.signal = sg'.signal := by
  simp only [LocalRun.shareSignal]
  split
  · rename_i v hv
    rw [hv]
    simp only [set_signal, h]
    cases he : sg.signal with
    | none => rfl
    | some w => rw [hm w he] at hv; exact hv
  · rename_i hv
    rw [hv, h]
    cases he : sg.signal with
    | none => rfl
    | some w => rw [hm w he] at hv; simp at hv

theorem share_all {cfg : LocalSetup} {ts : List (RunPlan × LocalRun)} {sg : SigState}
    (h : ∀ (n : Nat) (p : RunPlan) (l : LocalRun), ts[n]? = some (p, l) → ∃ la, LocalReach p cfg.plugins.length la l) :
    ∀ (n : Nat) (p : RunPlan) (l : LocalRun), (ts.modify (ts.length - 1) (fun x => (x.1, x.2.shareSignal sg)))[n]? = some (p, l) →
      ∃ la, LocalReach p cfg.plugins.length la l := by
  intro n p l hl
  rcases modify_get hl with hl | ⟨_, y, hy, e⟩
  · exact h n p l hl
  · obtain ⟨la, hla⟩ := h n y.1 y.2 hy
    simp only [Prod.mk.injEq] at e
    rw [e.1, e.2]
    exact share_reach hla _

theorem modify_concat {α : Type} (D : List α) (x : α) (f : α → α) :
    (D ++ [x]).modify ((D ++ [x]).length - 1) f = D ++ [f x] := by
  apply List.ext_getElem?
  intro n
  rw [List.getElem?_modify]
  by_cases h : n = D.length
  · subst h; simp
  · have h' : ¬ (D ++ [x]).length - 1 = n := by simp; omega
    simp only [h', if_false]
    by_cases hlt : n < D.length
    · rw [List.getElem?_append_left hlt, List.getElem?_append_left hlt]; cases D[n]? <;> rfl
    · rw [List.getElem?_eq_none (by simp; omega), List.getElem?_eq_none (by simp; omega)]; rfl

theorem handedOver_log {xs : List Event} {H : List (Command × List Log)} {c : Command} {ls : List Log} (h : handedOver xs = H ++ [(c, ls)])
    (id : StepId) (x : Log) : handedOver (xs ++ [.log id x]) = H ++ [(c, ls ++ [x])] := by
  rw [handedOver_append, h]
  simp only [noteHandedOver]
  rw [modify_concat]

/-- A task that is reading goes on reading. -/
theorem PairInv.read_move {cfg : LocalSetup} {t t' : SysTask} {ts : List (RunPlan × LocalRun)} (h : PairInv cfg t ts)
    (h0 : t.pc.reading = true) (h1 : t'.pc.reading = true) (hst : stepOf t'.pc = stepOf t.pc) (hr : t'.results = t.results)
    (hl : t'.stream.logs = t.stream.logs) (hres : t'.stream.result = t.stream.result)
    (hsig : ∀ v, t.sig.signal = some v → t'.sig.signal = some v)
    (he : t'.evs ++ t'.pc.pend = t.evs ++ t.pc.pend ∧ t'.stream.index = t.stream.index ∨
      ∃ id x, t'.evs ++ t'.pc.pend = t.evs ++ t.pc.pend ++ [.log id x] ∧ t.stream.logs[t.stream.index]? = some x ∧
        t'.stream.index = t.stream.index + 1)
    (hf : ∀ es k, t'.pc = .emitting es k → k.afterEmit = true ∧ (∀ c, Event.runnerRun c ∉ es)) :
    PairInv cfg t' (ts.modify (ts.length - 1) (fun x => (x.1, x.2.shareSignal t'.sig))) := by
  obtain ⟨st1, hst1⟩ := reading_stepOf h1
  obtain ⟨st, D, p, l, H, a1, rfl, a3, a4, a5, a6, a7, a8, a9⟩ := h.link h0
  refine ⟨share_all h.reach, fun e => ?_, hf, fun e => ?_, fun e => ?_, fun st t0 ref e => ?_, fun _ => ?_⟩
  · rw [e] at h1; cases h1
  · rw [hst1] at e; cases e
  · rw [hst1] at e; cases e
  · rw [e] at h1; cases h1
  · rw [modify_concat]
    have sh := share_stream l t'.sig
    have common : stepOf t'.pc = some st ∧ D ++ [(p, l.shareSignal t'.sig)] = D ++ [(p, l.shareSignal t'.sig)] ∧ PlanFor cfg st p ∧
        (l.shareSignal t'.sig).stream.logs = t'.stream.logs ∧ (l.shareSignal t'.sig).stream.result = t'.stream.result ∧
        (l.shareSignal t'.sig).sig.signal = t'.sig.signal :=
      ⟨by rw [hst]; exact a1, rfl, a3, by rw [sh.1, hl, a4], by rw [sh.1, hres, a5], share_signal_of a6 hsig⟩
    obtain ⟨c1, c2, c3, c4, c5, c6⟩ := common
    rcases he with ⟨e1, e2⟩ | ⟨id, x, e1, e2, e3⟩
    · exact ⟨st, D, p, _, H, c1, c2, c3, c4, c5, c6, by rw [hl, e2]; exact a7, by rw [e1, hl, e2]; exact a8, by rw [hr]; exact a9⟩
    · have hlt := (List.getElem?_eq_some_iff.1 e2)
      refine ⟨st, D, p, _, H, c1, c2, c3, c4, c5, c6, by rw [hl, e3]; exact hlt.1, ?_, by rw [hr]; exact a9⟩
      rw [e1, hl, e3, handedOver_log a8]
      congr 3
      obtain ⟨hb, hx⟩ := hlt
      rw [List.take_succ_eq_append_getElem hb, hx]

theorem executed_skip (rs : List StepRunResult) (id : StepId) : executedSteps (rs ++ [skippedResult id]) = executedSteps rs := by
  simp [executedSteps, List.filter_append, skippedResult]

theorem executed_step (rs : List StepRunResult) (id : StepId) (x : RunResult) (a b : Time) :
    executedSteps (rs ++ [stepResult id x a b]) = executedSteps rs ++ [stepResult id x a b] := by
  have : (stepResult id x a b).state ≠ .skipped := by cases x <;> simp [stepResult]
  simp [executedSteps, List.filter_append, this]

theorem stepResult_reports (id : StepId) (x : RunResult) (a b : Time) :
    (stepResult id x a b).id = id ∧ Reports x (stepResult id x a b) := by
  cases x <;> simp [stepResult, Reports]

/-- A step ends. -/
theorem PairInv.end_move {cfg : LocalSetup} {t : SysTask} {ts : List (RunPlan × LocalRun)} (h : PairInv cfg t ts) {st : Step} {t0 d : Time}
    {ref : Nat} (hpc : t.pc = .select st t0 d ref) {x : RunResult} (hx : t.stream.result = some x)
    (hidx : t.stream.logs.length ≤ t.stream.index) (now : Time) : PairInv cfg (t.stepDone (stepResult st.id x t0 now)) ts := by
  have hr : t.pc.reading = true := by rw [hpc]; rfl
  obtain ⟨st', D, p, l, H, a1, rfl, a3, a4, a5, a6, a7, a8, a9⟩ := h.link hr
  rw [hpc] at a1
  cases a1
  obtain ⟨r1, r2⟩ := stepResult_reports st.id x t0 now
  refine ⟨h.reach, fun e => ?_, fun es k e => ?_, fun _ e he => ?_, fun _ => ?_, fun st' t0' ref' e => ?_, fun e => ?_⟩
  · simp [SysTask.stepDone, SysTask.emitThen] at e
  · simp only [SysTask.stepDone, SysTask.emitThen, SysPc.emitting.injEq] at e
    obtain ⟨rfl, rfl⟩ := e
    exact ⟨rfl, fun c hc => by simp at hc⟩
  · simp [SysTask.stepDone, SysTask.emitThen, SysPc.pend] at he
    rcases he with rfl | rfl <;> rfl
  · have e1 : (t.stepDone (stepResult st.id x t0 now)).evs ++ (t.stepDone (stepResult st.id x t0 now)).pc.pend =
        t.evs ++ t.pc.pend ++ [.stepState (stepResult st.id x t0 now).id (stepResult st.id x t0 now).state, .stepCompleted (stepResult st.id x t0 now)] := by
      simp [SysTask.stepDone, SysTask.emitThen, SysPc.pend, hpc]
    rw [e1, handedOver_other (by intro e he; simp at he; rcases he with rfl | rfl <;> rfl), a8]
    have : t.stream.logs.take t.stream.index = l.stream.logs := by rw [a4]; exact List.take_of_length_le hidx
    rw [this]
    have : (t.stepDone (stepResult st.id x t0 now)).results = t.results ++ [stepResult st.id x t0 now] := rfl
    rw [this, executed_step]
    exact a9.snoc a3 (by rw [a5]; exact hx) r1 r2
  · simp [SysTask.stepDone, SysTask.emitThen] at e
  · simp [SysTask.stepDone, SysTask.emitThen, SysPc.reading] at e

theorem set_monotone (s : SigState) (w v : Signal) (h : s.signal = some v) : (s.set w).state.signal = some v := by
  rw [set_signal, h]; rfl

/-- Moves of the job task. -/
theorem PairInv.eng_move {cfg : LocalSetup} {t t' : SysTask} {ts : List (RunPlan × LocalRun)} (h : PairInv cfg t ts)
    {g g' : SigMgr} {ρ ρ' : SysRun} {now : Time} {i r : Nat} {b : TaskAct} (hb : (SysAct.task r i b).byRunner = false)
    (ht : ρ.tasks[i]? = some t) (hs : Sys.taskStep g ρ now i t b = some (g', ρ')) (ht' : ρ'.tasks[i]? = some t') :
    PairInv cfg t' (if t'.pc.reading then ts.modify (ts.length - 1) (fun x => (x.1, x.2.shareSignal t'.sig)) else ts) := by
  have idle : t'.pc.reading = false → PairInv cfg t' ts →
      PairInv cfg t' (if t'.pc.reading then ts.modify (ts.length - 1) (fun x => (x.1, x.2.shareSignal t'.sig)) else ts) := by
    intro e h
    rw [e]; exact h
  have read : t'.pc.reading = true → PairInv cfg t' (ts.modify (ts.length - 1) (fun x => (x.1, x.2.shareSignal t'.sig))) →
      PairInv cfg t' (if t'.pc.reading then ts.modify (ts.length - 1) (fun x => (x.1, x.2.shareSignal t'.sig)) else ts) := by
    intro e h
    rw [e]; exact h
  have hi := (List.getElem?_eq_some_iff.1 ht).1
  obtain ⟨t1, e1, _, _, _, _, _, _, _, _, hc⟩ := taskStep_frame hs
  rw [e1] at ht'
  simp only [List.getElem?_set_self hi, Option.some.injEq] at ht'
  subst ht'
  rcases hc with ⟨e, es, k, hpc, rfl, _⟩ | ⟨k, hpc, rfl, _⟩ | ⟨s, t0, ref, hpc, rfl, _⟩ | ⟨s, t0, hpc, rfl, _⟩ |
    ⟨s, t0, d, ref, sg, hpc, rfl, _⟩ | ⟨r, hpc, rfl, _⟩ | ⟨hs, _⟩
  · obtain ⟨f1, f2⟩ := h.form _ _ hpc
    have hform : ∀ es' k', SysPc.emitting es k = .emitting es' k' → k'.afterEmit = true ∧ (∀ c, Event.runnerRun c ∉ es') := by
      intro es' k' e
      cases e
      exact ⟨f1, fun c hc => f2 c (by simp [hc])⟩
    have hev : t.evs ++ [e] ++ (SysPc.emitting es k).pend = t.evs ++ t.pc.pend := by simp [hpc, SysPc.pend]
    by_cases hr : t.pc.reading = true
    · have hk : (SysPc.emitting es k).reading = true := by rw [hpc] at hr; cases k <;> simp [SysPc.reading] at hr ⊢
      refine read hk (h.read_move hr hk ?_ rfl rfl rfl (fun v hv => hv) (.inl ⟨hev, rfl⟩) hform)
      rw [hpc]; cases k <;> rfl
    · have hk : (SysPc.emitting es k).reading = false := by
        rw [hpc] at hr; cases k <;> first | rfl | simp [SysPc.reading] at hr
      have hst : stepOf t.pc = none := by
        cases hst : stepOf t.pc with
        | none => rfl
        | some st =>
          rcases stepOf_cases hst with e | ⟨t0, ref, e⟩
          · exact absurd e hr
          · rw [hpc] at e; cases e
      refine idle hk (h.idle_move hst ?_ rfl ⟨[], by simpa using hev, by simp⟩ (by simp) hform (fun x hx => ?_))
      · rw [hpc] at hst; cases k <;> first | rfl | simp [stepOf] at hst
      · exact h.quiet hst x (by rw [hpc]; simp only [SysPc.pend, List.cons_append, List.mem_cons] at hx ⊢; exact .inr hx)
  · obtain ⟨f1, f2⟩ := h.form _ _ hpc
    have hform : ∀ es' k', k = .emitting es' k' → k'.afterEmit = true ∧ (∀ c, Event.runnerRun c ∉ es') := by
      intro es' k' e
      rw [e] at f1; cases f1
    have hev : t.evs ++ k.pend = t.evs ++ t.pc.pend := by simp [hpc, SysPc.pend]
    by_cases hr : t.pc.reading = true
    · have hk : k.reading = true := by rw [hpc] at hr; cases k <;> simp [SysPc.reading] at hr ⊢
      refine read hk (h.read_move hr hk ?_ rfl rfl rfl (fun v hv => hv) (.inl ⟨hev, rfl⟩) hform)
      rw [hpc]; cases k <;> first | rfl | cases f1
    · have hk : k.reading = false := by
        rw [hpc] at hr; cases k <;> first | rfl | (simp [SysPc.reading] at hr; done) | cases f1
      have hst : stepOf t.pc = none := by
        cases hst : stepOf t.pc with
        | none => rfl
        | some st =>
          rcases stepOf_cases hst with e | ⟨t0, ref, e⟩
          · exact absurd e hr
          · rw [hpc] at e; cases e
      refine idle hk (h.idle_move hst ?_ rfl ⟨[], by simpa using hev, by simp⟩ ?_ hform (fun x hx => ?_))
      · cases k <;> first | rfl | (cases f1; done) | cases hk
      · intro e
        have e' : k = .init := e
        rw [e'] at f1
        cases f1
      · exact h.quiet hst x (by rw [hpc]; simpa [SysPc.pend] using hx)
  · refine idle rfl ?_
    have hst : stepOf t.pc = none := by rw [hpc]; rfl
    have hI := h.idle hst
    rw [hpc] at hI
    simp only [SysPc.pend, List.append_nil] at hI
    refine ⟨h.reach, fun e => (by cases e), fun es k e => (by cases e), fun e => (by cases e), fun e => (by cases e),
      fun st t0' ref' e => ?_, fun e => (by cases e)⟩
    cases e
    refine ⟨rfl, rfl, _, ?_, hI⟩
    simp only [SysPc.pend, List.append_nil]
    rw [handedOver_append]
    rfl
  · have hst : stepOf t.pc = none := by rw [hpc]; rfl
    exact idle rfl (h.idle_move hst rfl rfl ⟨[], by simp [hpc, SysPc.pend], by simp⟩ (by simp) (by simp) (by simp [SysPc.pend]))
  · have hr : t.pc.reading = true := by rw [hpc]; rfl
    have hsg : ∀ v, t.sig.signal = some v → sg.signal = some v := by
      intro v hv
      unfold Sys.taskStep at hs
      rw [hpc] at hs
      cases b <;> simp only [reduceCtorEq, SysTask.step] at hs
      case jobSignal =>
        split at hs
        · split at hs
          · simp only [Option.some.injEq, Prod.mk.injEq] at hs
            obtain ⟨_, rfl⟩ := hs
            simp only [SysRun.setTask] at e1
            have := congrArg (fun l => l[i]?) e1
            simp only [List.getElem?_set_self hi, Option.some.injEq] at this
            have := congrArg (fun t => t.sig) this
            simp only at this
            rw [← this]
            exact set_monotone _ _ _ hv
          · simp at hs
        · simp at hs
      case timer =>
        rw [hpc] at hs
        simp only at hs
        split at hs
        · simp only [Option.map_some, Option.some.injEq, Prod.mk.injEq] at hs
          obtain ⟨_, rfl⟩ := hs
          simp only [SysRun.setTask] at e1
          have := congrArg (fun l => l[i]?) e1
          simp only [List.getElem?_set_self hi, Option.some.injEq] at this
          have := congrArg (fun t => t.sig) this
          simp only at this
          rw [← this]
          exact set_monotone _ _ _ hv
        · simp at hs
      all_goals
        rw [hpc] at hs
        try simp only [Option.map_none, reduceCtorEq] at hs
      all_goals
        first
          | (simp [SysAct.byRunner] at hb; done)
          | (repeat' (split at hs)
             all_goals simp only [Option.map_some, Option.map_none, Option.some.injEq, Prod.mk.injEq, reduceCtorEq] at hs
             all_goals obtain ⟨_, rfl⟩ := hs
             all_goals simp only [SysRun.setTask] at e1
             all_goals have := congrArg (fun l => l[i]?) e1
             all_goals simp only [List.getElem?_set_self hi, Option.some.injEq] at this
             all_goals have := congrArg (fun t => t.sig) this
             all_goals (try simp only [SysTask.emitThen, SysTask.stepDone] at this)
             all_goals (rw [← this]; exact hv))
    refine read rfl (h.read_move hr rfl ?_ rfl rfl rfl hsg (.inl ⟨by simp [hpc, SysPc.pend], rfl⟩) (by simp))
    rw [hpc]; rfl
  · have hst : stepOf t.pc = none := by rw [hpc]; rfl
    exact idle rfl (h.idle_move hst rfl rfl ⟨[], by simp [hpc, SysPc.pend], by simp⟩ (by simp) (by simp) (by simp [SysPc.pend]))
  · cases b <;> simp only [SysTask.step, reduceCtorEq] at hs
    case check c =>
      split at hs
      · rename_i hpc
        obtain ⟨i1, i2⟩ := h.init hpc
        have hst : stepOf t.pc = none := by rw [hpc]; rfl
        split at hs <;> cases hs
        · refine idle rfl (h.idle_move hst rfl rfl ⟨_, by simp [hpc, SysPc.pend, SysTask.emitThen]; rfl, ?_⟩ (by simp [SysTask.emitThen]) ?_ ?_)
          · intro e he; simp at he; subst he; rfl
          · intro es k e; simp only [SysTask.emitThen, SysPc.emitting.injEq] at e; obtain ⟨rfl, rfl⟩ := e; exact ⟨rfl, by simp⟩
          · intro e he; simp [SysTask.emitThen, SysPc.pend] at he; subst he; rfl
        · refine idle rfl (h.idle_move hst rfl (by rw [i1]) ⟨_, by simp [hpc, SysPc.pend, SysTask.emitThen]; rfl, ?_⟩ (by simp [SysTask.emitThen]) ?_ ?_)
          · intro e he; simp at he; rcases he with rfl | rfl <;> rfl
          · intro es k e; simp only [SysTask.emitThen, SysPc.emitting.injEq] at e; obtain ⟨rfl, rfl⟩ := e; exact ⟨rfl, by simp⟩
          · intro e he; simp [SysTask.emitThen, SysPc.pend] at he; rcases he with rfl | rfl <;> rfl
      · simp at hs
    case nextStep c s =>
      split at hs
      · rename_i hpc _
        have hst : stepOf t.pc = none := by rw [hpc]; rfl
        split at hs <;> cases hs
        · refine idle rfl (h.idle_move hst rfl (executed_skip _ _) ⟨_, by simp [hpc, SysPc.pend, SysTask.emitThen]; rfl, ?_⟩ (by simp [SysTask.emitThen]) ?_ ?_)
          · intro e he; simp at he; subst he; rfl
          · intro es k e; simp only [SysTask.emitThen, SysPc.emitting.injEq] at e; obtain ⟨rfl, rfl⟩ := e; exact ⟨rfl, by simp⟩
          · intro e he; simp [SysTask.emitThen, SysPc.pend] at he; subst he; rfl
        · refine idle rfl (h.idle_move hst rfl rfl ⟨_, by simp [hpc, SysPc.pend, SysTask.emitThen]; rfl, ?_⟩ (by simp [SysTask.emitThen]) ?_ ?_)
          · intro e he; simp at he; rcases he with rfl | rfl <;> rfl
          · intro es k e; simp only [SysTask.emitThen, SysPc.emitting.injEq] at e; obtain ⟨rfl, rfl⟩ := e; exact ⟨rfl, by simp⟩
          · intro e he; simp [SysTask.emitThen, SysPc.pend] at he; rcases he with rfl | rfl <;> rfl
      · simp at hs
    case finishJob =>
      split at hs
      · rename_i hpc _
        have hst : stepOf t.pc = none := by rw [hpc]; rfl
        cases hs
        refine idle rfl (h.idle_move hst rfl rfl ⟨_, by simp [hpc, SysPc.pend, SysTask.emitThen]; rfl, ?_⟩ (by simp [SysTask.emitThen]) ?_ ?_)
        · intro e he; simp at he; rcases he with rfl | rfl <;> rfl
        · intro es k e; simp only [SysTask.emitThen, SysPc.emitting.injEq] at e; obtain ⟨rfl, rfl⟩ := e; exact ⟨rfl, by simp⟩
        · intro e he; simp [SysTask.emitThen, SysPc.pend] at he; rcases he with rfl | rfl <;> rfl
      · simp at hs
    case enter =>
      split at hs
      · rename_i s t0 ref hpc
        have hr : t.pc.reading = true := by rw [hpc]; rfl
        cases hs
        refine read rfl (h.read_move hr rfl ?_ rfl rfl rfl (fun v hv => hv) (.inl ⟨by simp [hpc, SysPc.pend], rfl⟩) (by simp))
        rw [hpc]; rfl
      · simp at hs
    case timer =>
      split at hs
      · rename_i s t0 d ref hpc
        have hr : t.pc.reading = true := by rw [hpc]; rfl
        split at hs <;> cases hs
        refine read rfl (h.read_move hr rfl ?_ rfl rfl rfl (fun v hv => set_monotone _ _ _ hv) (.inl ⟨by simp [hpc, SysPc.pend], rfl⟩) (by simp))
        rw [hpc]; rfl
      · simp at hs
    case recv =>
      split at hs
      · rename_i s t0 d ref hpc
        have hr : t.pc.reading = true := by rw [hpc]; rfl
        split at hs
        · rename_i st' x hpoll
          cases hs
          simp only [StreamState.poll] at hpoll
          split at hpoll
          · rename_i y hy
            simp only [Prod.mk.injEq, PollOut.item.injEq] at hpoll
            obtain ⟨rfl, rfl⟩ := hpoll
            refine read rfl (h.read_move hr rfl ?_ rfl rfl rfl (fun v hv => hv)
              (.inr ⟨s.id, y, by simp [hpc, SysPc.pend, SysTask.emitThen], hy, rfl⟩) ?_)
            · rw [hpc]; rfl
            · intro es k e; simp only [SysTask.emitThen, SysPc.emitting.injEq] at e; obtain ⟨rfl, rfl⟩ := e; exact ⟨rfl, by simp⟩
          · split at hpoll <;> simp at hpoll
        · rename_i hpoll
          cases hx : t.stream.result with
          | none => simp [hx] at hs
          | some x =>
          simp only [hx, Option.some.injEq] at hs
          subst hs
          refine idle rfl (h.end_move hpc hx ?_ _)
          simp only [StreamState.poll] at hpoll
          split at hpoll
          · simp at hpoll
          · rename_i hnone; exact List.getElem?_eq_none_iff.1 hnone
        · simp at hs
      · simp at hs
    all_goals simp [SysAct.byRunner] at hb

theorem share_nothing {t : SysTask} (ts : List (RunPlan × LocalRun)) (h : t.sig.signal = none) (x : RunPlan × LocalRun) (_ : x ∈ ts) :
    x.2.shareSignal t.sig = x.2 := by
  simp [LocalRun.shareSignal, h]

/-- The runner takes a step. -/
theorem PairInv.spawn_move {cfg : LocalSetup} {t : SysTask} {ts : List (RunPlan × LocalRun)} (h : PairInv cfg t ts) {st : Step} {t0 : Time}
    {ref : Nat} (hpc : t.pc = .calling st t0 ref) {p : RunPlan} (hp : PlanFor cfg st p) :
    PairInv cfg (t.emitThen [.stepState st.id .inProgress] (.handling st t0 ref)) (ts ++ [(p, LocalRun.initial p cfg.plugins.length)]) := by
  obtain ⟨a1, a2, H, a3, a4⟩ := h.calling st t0 ref hpc
  refine ⟨fun n q l hl => ?_, fun e => (by cases e), fun es k e => ?_, fun e => (by cases e), fun e => (by cases e), fun _ _ _ e => (by cases e), fun _ => ?_⟩
  · rw [List.getElem?_append] at hl
    split at hl
    · exact h.reach n q l hl
    · obtain ⟨rfl, rfl⟩ := Prod.mk.injEq .. ▸ List.mem_singleton.1 (List.mem_of_getElem? hl)
      exact ⟨[], rfl⟩
  · simp only [SysTask.emitThen, SysPc.emitting.injEq] at e
    obtain ⟨rfl, rfl⟩ := e
    exact ⟨rfl, by simp⟩
  · refine ⟨st, ts, p, _, H, rfl, rfl, hp, ?_, ?_, ?_, ?_, ?_, a4⟩
    · simp [SysTask.emitThen, a1, LocalRun.initial]
    · simp [SysTask.emitThen, a1, LocalRun.initial]
    · simp [SysTask.emitThen, a2, LocalRun.initial]
    · simp [SysTask.emitThen, a1]
    · have : (t.emitThen [.stepState st.id .inProgress] (.handling st t0 ref)).evs ++
          (t.emitThen [.stepState st.id .inProgress] (.handling st t0 ref)).pc.pend = t.evs ++ t.pc.pend ++ [.stepState st.id .inProgress] := by
        simp [SysTask.emitThen, SysPc.pend, hpc]
      rw [this, handedOver_other (by intro e he; simp at he; subst he; rfl), a3]
      simp [SysTask.emitThen, a1]

/-- A task the engine is not reading from moves. -/
theorem PairInv.other_move {cfg : LocalSetup} {t : SysTask} {ts : List (RunPlan × LocalRun)} (h : PairInv cfg t ts) {n : Nat} {a : LocalAct}
    {p : RunPlan} {l l' : LocalRun} (hget : ts[n]? = some (p, l)) (hs : l.step a = some l')
    (ho : t.pc.reading = true → n + 1 ≠ ts.length) : PairInv cfg t (ts.set n (p, l')) := by
  obtain ⟨la, hla⟩ := h.reach n p l hget
  have hres := (local_reach hla).1
  have hn := (List.getElem?_eq_some_iff.1 hget).1
  refine ⟨fun m q k hm => ?_, h.init, h.form, h.quiet, fun e => (h.idle e).set hget hres hs, fun st t0 ref e => ?_, fun e => ?_⟩
  · rw [List.getElem?_set] at hm
    split at hm
    · simp only [hn, if_true, Option.some.injEq, Prod.mk.injEq] at hm
      obtain ⟨rfl, rfl⟩ := hm
      exact ⟨_, localReach_snoc hla hs⟩
    · exact h.reach m q k hm
  · obtain ⟨a1, a2, H, a3, a4⟩ := h.calling st t0 ref e
    exact ⟨a1, a2, H, a3, a4.set hget hres hs⟩
  · obtain ⟨st, D, q, k, H, a1, rfl, a3, a4, a5, a6, a7, a8, a9⟩ := h.link e
    have hlt : n < D.length := by
      have := ho e
      simp only [List.length_append, List.length_cons, List.length_nil] at this hn
      omega
    rw [List.getElem?_append_left hlt] at hget
    exact ⟨st, D.set n (p, l'), q, k, H, a1, by rw [List.set_append_left _ _ hlt], a3, a4, a5, a6, a7, a8, a9.set hget hres hs⟩

/-- The task the engine is reading from moves. -/
theorem PairInv.wrote_move {cfg : LocalSetup} {t : SysTask} {ts : List (RunPlan × LocalRun)} (h : PairInv cfg t ts) {n : Nat} {a : LocalAct}
    {p : RunPlan} {l l' : LocalRun} (hget : ts[n]? = some (p, l)) (ha : ∀ v, a ≠ .setSignal v) (hs : l.step a = some l')
    (hr : t.pc.reading = true) (hn : n + 1 = ts.length) {st : StreamState}
    (hst : l.stream.logs = t.stream.logs → l.stream.result = t.stream.result →
        st.logs = l'.stream.logs ∧ st.result = l'.stream.result ∧ st.index = t.stream.index) :
    PairInv cfg { t with stream := st } (ts.set n (p, l')) := by
  obtain ⟨la, hla⟩ := h.reach n p l hget
  obtain ⟨st1, hst1⟩ := reading_stepOf hr
  obtain ⟨st0, D, q, k, H, a1, rfl, a3, a4, a5, a6, a7, a8, a9⟩ := h.link hr
  have hnD : n = D.length := by simp at hn; exact hn
  subst hnD
  simp only [List.getElem?_concat_length, Option.some.injEq, Prod.mk.injEq] at hget
  obtain ⟨rfl, rfl⟩ := hget
  obtain ⟨b1, b2, b3⟩ := hst a4 a5
  have hmono : ∃ w, l'.stream.logs = t.stream.logs ++ w := by
    cases wrote_step hs with
    | log x h1 h2 => exact ⟨[x], by rw [h1, a4]⟩
    | ended x h1 h0 h2 => exact ⟨[], by rw [h1, a4]; simp⟩
    | nothing h1 h2 => exact ⟨[], by rw [h1, a4]; simp⟩
  obtain ⟨w, hw⟩ := hmono
  refine ⟨fun m q' k' hm => ?_, fun e => ?_, h.form, fun e => ?_, fun e => ?_, fun st t0 ref e => ?_, fun _ => ?_⟩
  · rw [List.getElem?_set] at hm
    split at hm
    · simp only [List.length_append, List.length_cons, List.length_nil, Nat.zero_add, Nat.lt_add_one, if_true, Option.some.injEq, Prod.mk.injEq] at hm
      obtain ⟨rfl, rfl⟩ := hm
      exact ⟨_, localReach_snoc hla hs⟩
    · exact h.reach m q' k' hm
  · have e' : t.pc = .init := e
    rw [e'] at hr; cases hr
  · have e' : stepOf t.pc = none := e
    rw [hst1] at e'; cases e'
  · have e' : stepOf t.pc = none := e
    rw [hst1] at e'; cases e'
  · have e' : t.pc = .calling st t0 ref := e
    rw [e'] at hr; cases hr
  · refine ⟨st0, D, q, l', H, a1, by simp, a3, b1.symm, b2.symm, ?_, ?_, ?_, a9⟩
    · rw [← a6]; exact signal_step ha hs
    · simp only [b1, b3, hw, List.length_append]; omega
    · simp only [b1, b3, hw, List.take_append_of_le_length a7]; exact a8

/-- `PairInv` of a job task that may not exist yet. -/
def PairOk (cfg : LocalSetup) : Option SysTask → List (RunPlan × LocalRun) → Prop
  | none, ts => ts = []
  | some t, ts => PairInv cfg t ts

theorem PairOk.move {cfg : LocalSetup} {o o' : Option SysTask} {ts ts' : List (RunPlan × LocalRun)} (h : PairOk cfg o ts)
    (hm : PairMove cfg o ts o' ts') : PairOk cfg o' ts' := by
  cases hm with
  | same => exact h
  | born k j =>
    have : ts = [] := h
    subst this
    exact PairInv.fresh cfg k j
  | eng g g' ρ ρ' now i r b t t' _ hb ht hs ht' => exact PairInv.eng_move h hb ht hs ht'
  | spawned t _ st t0 ref hpc p hp => exact PairInv.spawn_move h hpc hp
  | other _ _ n a p l l' hget ha hs ho =>
    cases o with
    | none =>
      have : ts = [] := h
      subst this
      simp at hget
    | some t => exact PairInv.other_move h hget hs (ho t rfl)
  | wrote t _ n a p l l' hget ha hs hr hn st hst => exact PairInv.wrote_move h hget ha hs hr hn hst

/-- What is known about the engine and its runner. -/
structure EngineInv (setup : EngineSetup) (acts : List EngineAct) (E : LocalEngine) : Prop where
  same : E.setup = setup
  sys : ∃ sa, SysReach sa E.sys ∧ sa.filter (fun a => !a.byRunner) = engineMoves acts
  pairs : ∀ r i, PairOk (forRun setup r) (taskAt E.sys r i) (E.tasks r i)

/-- The engine's own part of a move. -/
def EngineAct.engPart : EngineAct → List SysAct
  | .sys b => [b]
  | _ => []

theorem engineMoves_snoc (acts : List EngineAct) (a : EngineAct) :
    engineMoves (acts ++ [a]) = engineMoves acts ++ a.engPart := by
  cases a <;> simp [engineMoves, List.filterMap_append, EngineAct.engPart]

theorem hidden_filter {a : EngineAct} {sa : List SysAct} (h : Hidden a sa) :
    sa.filter (fun a => !a.byRunner) = a.engPart := by
  cases a with
  | sys b =>
    obtain ⟨h1, rfl⟩ := h
    simp [h1, EngineAct.engPart]
  | spawned r i past envs =>
    simp only [Hidden] at h
    simpa [List.filter_eq_nil_iff, EngineAct.engPart] using h
  | loc r i n b =>
    simp only [Hidden] at h
    simpa [List.filter_eq_nil_iff, EngineAct.engPart] using h

theorem engineInv_step {setup : EngineSetup} {acts : List EngineAct} {E E' : LocalEngine} {a : EngineAct} (h : EngineInv setup acts E)
    (hs : E.step a = some E') : EngineInv setup (acts ++ [a]) E' := by
  obtain ⟨h1, ⟨sa, h2, h3⟩, h4⟩ := engine_move hs
  obtain ⟨sa0, k1, k2⟩ := h.sys
  refine ⟨by rw [h1, h.same], ⟨sa0 ++ sa, ?_, ?_⟩, fun r i => ?_⟩
  · unfold SysReach at k1 ⊢
    rw [runs_append, k1]
    exact h3
  · rw [List.filter_append, k2, hidden_filter h2, engineMoves_snoc]
  · have := h4 r i
    rw [h.same] at this
    exact (h.pairs r i).move this

theorem engineInv_reach {setup : EngineSetup} {acts : List EngineAct} {E : LocalEngine} (h : EngineReach setup acts E) :
    EngineInv setup acts E := by
  refine runs_induct (P := fun acts E => EngineInv setup acts E) ?_ ?_ h
  · refine ⟨rfl, ⟨[], rfl, rfl⟩, fun r i => ?_⟩
    simp [LocalEngine.initial, taskAt, PairOk]
  · intro acts a E E' _ ih hs
    exact engineInv_step ih hs

end AstroRun
