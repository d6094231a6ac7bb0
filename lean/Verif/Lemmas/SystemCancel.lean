import Verif.Spec.SystemCancel
import Verif.Lemmas.Lifecycle

/-! # Cancelling jobs of a busy engine: invariants -/

namespace AstroRun
open Spec

/-- Who registered a signal: the job id and the job run. -/
abbrev Owner := JobId × Nat × Nat

/-- The signal a step listens to was registered under the job part of its id; a cancelled step's job was cancelled. -/
def RefAt (ow : List Owner) (ans : List (JobId × Bool)) (t : SysTask) : SysPc → Prop
  | .emitting _ k => RefAt ow ans t k
  | .calling s _ ref | .handling s _ ref | .select s _ _ ref =>
    (∃ p, ow[ref]? = some (s.id.jobId, p)) ∧ (t.sig.signal = some .cancel → (s.id.jobId, true) ∈ ans)
  | _ => True

theorem RefAt.congr {ow ow' : List Owner} {ans ans' : List (JobId × Bool)} {t t' : SysTask} {pc : SysPc} (h : RefAt ow ans t pc)
    (h1 : ∀ (n : Nat) (o : Owner), ow[n]? = some o → ow'[n]? = some o) (h2 : ∀ x ∈ ans, x ∈ ans') (h3 : t'.sig = t.sig) : RefAt ow' ans' t' pc := by
  induction pc with
  | emitting es k ih => exact ih h
  | calling | handling | select =>
    obtain ⟨⟨p, hp⟩, h⟩ := h
    exact ⟨⟨p, h1 _ _ hp⟩, fun hc => h2 _ (h (by rw [← h3]; exact hc))⟩
  | _ => trivial

theorem set_timeout_cancel {s : SigState} (h : (s.set .timeout).state.signal = some .cancel) : s.signal = some .cancel := by
  unfold SigState.set at h
  split at h
  · exact h
  · simp at h

theorem RefAt.step {ow : List Owner} {ans : List (JobId × Bool)} {now : Time} {t t' : SysTask} {a : TaskAct} (h : RefAt ow ans t t.pc)
    (hs : t.step now a = some t') : RefAt ow ans t' t'.pc := by
  cases a <;> simp only [SysTask.step] at hs
  case check b =>
    split at hs
    · split at hs <;> cases hs <;> trivial
    · simp at hs
  case nextStep b s =>
    split at hs
    · split at hs <;> cases hs <;> trivial
    · simp at hs
  case finishJob =>
    split at hs
    · cases hs; trivial
    · simp at hs
  case refuse e =>
    split at hs
    · cases hs; trivial
    · simp at hs
  case accept =>
    split at hs
    · rename_i hpc; rw [hpc] at h; cases hs; exact h
    · simp at hs
  case enter =>
    split at hs
    · rename_i hpc; rw [hpc] at h; cases hs; exact h
    · simp at hs
  case timer =>
    split at hs
    · rename_i hpc
      rw [hpc] at h
      split at hs <;> cases hs
      exact ⟨h.1, fun hc => h.2 (set_timeout_cancel hc)⟩
    · simp at hs
  case recv =>
    split at hs
    · rename_i hpc
      rw [hpc] at h
      split at hs
      · cases hs; exact h
      · split at hs
        · cases hs; trivial
        · simp at hs
      · simp at hs
    · simp at hs
  case push l => split at hs <;> cases hs; exact h.congr (fun _ _ h => h) (fun _ h => h) rfl
  case endStream r => split at hs <;> cases hs; exact h.congr (fun _ _ h => h) (fun _ h => h) rfl
  all_goals cases hs

/-- What is known about signals, answers and steps. -/
structure CancelInv (acts : List SysAct) (M : Sys) (ow : List Owner) : Prop where
  len : ow.length = M.mgr.heap.length
  table : ∀ j ref, M.mgr.getSignal j = some ref → ∃ p, ow[ref]? = some (j, p)
  quiet : ∀ (ref : Nat) (c : SigState), M.mgr.heap[ref]? = some c → c.isNotified = true → c.signal ≠ none
  cells : ∀ (ref : Nat) (c : SigState) (v : Signal), M.mgr.heap[ref]? = some c → c.signal = some v → v = .cancel ∧
    ∀ o, ow[ref]? = some o → (o.1, true) ∈ M.answers
  heard : ∀ (ref : Nat) (c : SigState) (o : Owner), M.mgr.heap[ref]? = some c → c.isNotified = true → ow[ref]? = some o → PassedOn acts o.1
  accepted : ∀ j, (j, true) ∈ M.answers → ∃ (ref : Nat) (p : Nat × Nat) (c : SigState), ow[ref]? = some (j, p) ∧ M.mgr.heap[ref]? = some c ∧ c.signal = some .cancel
  tasks : ∀ (r : Nat) (ρ : SysRun) (i : Nat) (t : SysTask), M.runs[r]? = some ρ → ρ.tasks[i]? = some t → RefAt ow M.answers t t.pc
  regs : ∀ (ref : Nat) (j : JobId) (r i : Nat), ow[ref]? = some (j, r, i) → ∃ (ρ : SysRun) (t : SysTask),
    M.runs[r]? = some ρ ∧ ρ.tasks[i]? = some t ∧ Event.runJob j ∈ t.evs
  nodup : (ow.map Prod.snd).Nodup

theorem Spec.PassedOn.snoc {acts : List SysAct} {j : JobId} (h : PassedOn acts j) (a : SysAct) : PassedOn (acts ++ [a]) j := by
  obtain ⟨pre, post, r, i, M0, t, s, rfl, h1⟩ := h
  exact ⟨pre, post ++ [a], r, i, M0, t, s, by simp, h1⟩

/-- Runs keep their tasks, and tasks their notifications. -/
def KeepsEvents (M M' : Sys) : Prop :=
  ∀ (r i : Nat) (ρ : SysRun) (t : SysTask), M.runs[r]? = some ρ → ρ.tasks[i]? = some t →
    ∃ (ρ' : SysRun) (t' : SysTask), M'.runs[r]? = some ρ' ∧ ρ'.tasks[i]? = some t' ∧ ∀ e ∈ t.evs, e ∈ t'.evs

theorem keepsEvents_step {M M' : Sys} {a : SysAct} (hs : M.step a = some M') : KeepsEvents M M' := by
  intro r i ρ t hr ht
  rcases sys_step_cases hs with ⟨wf, rfl, rfl⟩ | ⟨n, b, ρ₁, ρ₂, rfl, hρ, hmm, rfl⟩ |
    ⟨n, k, b, ρ₁, u, g', ρ₂, rfl, hρ, htt, hmm, rfl⟩ | ⟨n, rfl, rfl⟩ | ⟨j, x, rfl, rfl⟩
  · exact ⟨ρ, t, by simp only [List.getElem?_append_left (List.getElem?_eq_some_iff.1 hr).1]; exact hr, ht, fun _ h => h⟩
  · by_cases he : n = r
    · subst he
      rw [hr] at hρ
      cases hρ
      obtain ⟨es, hes⟩ := main_fresh hmm
      exact ⟨ρ₂, t, by simp [(List.getElem?_eq_some_iff.1 hr).1],
        by rw [hes, List.getElem?_append_left (List.getElem?_eq_some_iff.1 ht).1]; exact ht, fun _ h => h⟩
    · exact ⟨ρ, t, by simp [he, hr], ht, fun _ h => h⟩
  · by_cases he : n = r
    · subst he
      rw [hr] at hρ
      cases hρ
      obtain ⟨u', h1, h2⟩ := taskStep_trace hmm
      by_cases hk : k = i
      · subst hk
        rw [ht] at htt
        cases htt
        refine ⟨ρ₂, u', by simp [(List.getElem?_eq_some_iff.1 hr).1], by rw [h1]; simp [(List.getElem?_eq_some_iff.1 ht).1], ?_⟩
        intro e he
        rcases h2 with ⟨_, h2⟩ | ⟨x, _, h2⟩
        · rw [h2]; exact he
        · rw [h2]; exact List.mem_append_left _ he
      · exact ⟨ρ₂, t, by simp [(List.getElem?_eq_some_iff.1 hr).1], by rw [h1]; simp [hk, ht], fun _ h => h⟩
    · exact ⟨ρ, t, by simp [he, hr], ht, fun _ h => h⟩
  · exact ⟨ρ, t, hr, ht, fun _ h => h⟩
  · exact ⟨ρ, t, hr, ht, fun _ h => h⟩

/-- A move that leaves the signals and answers alone. -/
theorem CancelInv.frame {acts : List SysAct} {M M' : Sys} {ow : List Owner} {a : SysAct} (h : CancelInv acts M ow)
    (hs : M.step a = some M') (h1 : M'.mgr = M.mgr) (h2 : M'.answers = M.answers)
    (ht : ∀ (r : Nat) (ρ : SysRun) (i : Nat) (t : SysTask), M'.runs[r]? = some ρ → ρ.tasks[i]? = some t → RefAt ow M.answers t t.pc) :
    CancelInv (acts ++ [a]) M' ow := by
  refine ⟨by rw [h1]; exact h.len, by rw [h1]; exact h.table, by rw [h1]; exact h.quiet, by rw [h1, h2]; exact h.cells, ?_,
    by rw [h1, h2]; exact h.accepted, by rw [h2]; exact ht, ?_, h.nodup⟩
  · rw [h1]
    exact fun ref c o hc hn ho => (h.heard ref c o hc hn ho).snoc a
  · intro ref j r i ho
    obtain ⟨ρ, t, e1, e2, e3⟩ := h.regs ref j r i ho
    obtain ⟨ρ', t', e1', e2', e3'⟩ := keepsEvents_step hs r i ρ t e1 e2
    exact ⟨ρ', t', e1', e2', e3' _ e3⟩

/-- The tasks after a move of one of them. -/
theorem tasks_after {M : Sys} {g' : SigMgr} {n i : Nat} {ρ₁ ρ₂ : SysRun} {t' : SysTask} {Q : SysTask → Prop}
    (hρ : M.runs[n]? = some ρ₁) (hset : ρ₂.tasks = ρ₁.tasks.set i t') (hq : Q t')
    (hold : ∀ (r : Nat) (ρ : SysRun) (k : Nat) (u : SysTask), M.runs[r]? = some ρ → ρ.tasks[k]? = some u → Q u) :
    ∀ (r : Nat) (ρ : SysRun) (k : Nat) (u : SysTask), (({ M with mgr := g', runs := M.runs.set n ρ₂ } : Sys)).runs[r]? = some ρ →
      ρ.tasks[k]? = some u → Q u := by
  intro r ρ k u hr hk
  simp only [List.getElem?_set] at hr
  split at hr
  · split at hr
    · cases hr
      rw [hset] at hk
      rcases List.mem_or_eq_of_mem_set (List.mem_of_getElem? hk) with hm | rfl
      · obtain ⟨k', hk'⟩ := List.mem_iff_getElem?.1 hm
        exact hold n ρ₁ k' u hρ hk'
      · exact hq
    · cases hr
  · exact hold r ρ k u hr hk

theorem cancelInv_init : CancelInv [] {} [] :=
  ⟨rfl, by simp [SigMgr.getSignal, AMap.get?], by simp, by simp, by simp, by simp, by simp, by simp, by simp⟩

theorem cancelInv_step {acts : List SysAct} {M M' : Sys} {a : SysAct} {ow : List Owner} (hreach : SysReach acts M)
    (h : CancelInv acts M ow) (hs : M.step a = some M') : ∃ ow', CancelInv (acts ++ [a]) M' ow' := by
  cases a with
  | start wf =>
    refine ⟨ow, h.frame hs ?_ ?_ ?_⟩
    all_goals simp only [Sys.step, Option.some.injEq] at hs; subst hs
    · rfl
    · rfl
    · intro r ρ i t hr ht
      simp only [List.getElem?_append] at hr
      split at hr
      · exact h.tasks r ρ i t hr ht
      · obtain rfl := List.mem_singleton.1 (List.mem_of_getElem? hr)
        simp at ht
  | tick n =>
    refine ⟨ow, h.frame hs ?_ ?_ ?_⟩
    all_goals simp only [Sys.step, Option.some.injEq] at hs; subst hs
    · rfl
    · rfl
    · exact h.tasks
  | main n b =>
    rcases sys_step_cases hs with ⟨wf, h1, _⟩ | ⟨n, b, ρ₁, ρ₂, h1, hρ, hmm, rfl⟩ |
      ⟨n, k, b, ρ₁, u, g', ρ₂, h1, _⟩ | ⟨n, h1, _⟩ | ⟨j, x, h1, _⟩
    all_goals cases h1
    refine ⟨ow, h.frame hs rfl rfl ?_⟩
    intro r ρ i t hr ht
    simp only [List.getElem?_set] at hr
    split at hr
    · split at hr
      · cases hr
        obtain ⟨es, hes⟩ := main_fresh hmm
        rw [hes, List.getElem?_append] at ht
        split at ht
        · exact h.tasks n ρ₁ i t hρ ht
        · obtain ⟨e, _, rfl⟩ := List.mem_map.1 (List.mem_of_getElem? ht)
          trivial
      · cases hr
    · exact h.tasks r ρ i t hr ht
  | cancel j =>
    refine ⟨ow, ?_⟩
    have keep := keepsEvents_step hs
    simp only [Sys.step, Option.some.injEq] at hs
    generalize hans : M.mgr.cancelJob j = X at hs
    obtain ⟨g, ans⟩ := X
    subst hs
    simp only [SigMgr.cancelJob, SigMgr.cancelRef] at hans
    have regs : ∀ (ref : Nat) (k : JobId) (r i : Nat), ow[ref]? = some (k, r, i) → ∃ (ρ : SysRun) (t : SysTask),
        M.runs[r]? = some ρ ∧ ρ.tasks[i]? = some t ∧ Event.runJob k ∈ t.evs := h.regs
    have more : ∀ x, ∀ p ∈ M.answers, p ∈ M.answers ++ [x] := fun x p hp => List.mem_append_left _ hp
    split at hans
    · cases hans
      refine ⟨h.len, h.table, h.quiet, fun ref c v hc hv => ⟨(h.cells ref c v hc hv).1, fun o ho => more _ _ ((h.cells ref c v hc hv).2 o ho)⟩,
        fun ref c o hc hn ho => (h.heard ref c o hc hn ho).snoc _, ?_, ?_, regs, h.nodup⟩
      · intro k hk
        simp at hk
        exact h.accepted k hk
      · intro r ρ i t hr ht
        exact (h.tasks r ρ i t hr ht).congr (fun _ _ h => h) (more _) rfl
    · rename_i ref hget
      obtain ⟨p, hp⟩ := h.table j ref hget
      split at hans
      · rename_i hnone
        have := (List.getElem?_eq_some_iff.1 hp).1
        rw [h.len] at this
        rw [List.getElem?_eq_getElem this] at hnone
        cases hnone
      · rename_i c hc
        cases hans
        have hlt := (List.getElem?_eq_some_iff.1 hc).1
        cases hsig : c.signal with
        | some v =>
          have e1 : (c.set .cancel).state = c := by simp [SigState.set, hsig]
          have e2 : (c.set .cancel).ok = false := by simp [SigState.set, hsig]
          have e3 : M.mgr.heap.set ref c = M.mgr.heap := by
            apply List.ext_getElem?
            intro n
            rw [List.getElem?_set]
            split
            · rename_i he; subst he; rw [hc]
            · rfl
          simp only [e1, e2, e3]
          refine ⟨h.len, h.table, h.quiet, fun ref c v hc hv => ⟨(h.cells ref c v hc hv).1, fun o ho => more _ _ ((h.cells ref c v hc hv).2 o ho)⟩,
            fun ref c o hc hn ho => (h.heard ref c o hc hn ho).snoc _, ?_, ?_, regs, h.nodup⟩
          · intro k hk
            simp at hk
            exact h.accepted k hk
          · intro r ρ i t hr ht
            exact (h.tasks r ρ i t hr ht).congr (fun _ _ h => h) (more _) rfl
        | none =>
          have e1 : (c.set .cancel).state = { c with signal := some .cancel, waker := none } := by simp [SigState.set, hsig]
          have e2 : (c.set .cancel).ok = true := by simp [SigState.set, hsig]
          simp only [e1, e2, if_true]
          have hcell : ∀ {n : Nat} {c' : SigState}, (M.mgr.heap.set ref { c with signal := some .cancel, waker := none })[n]? = some c' →
              n = ref ∧ c' = { c with signal := some .cancel, waker := none } ∨ n ≠ ref ∧ M.mgr.heap[n]? = some c' := by
            intro n c' hn
            rw [List.getElem?_set] at hn
            split at hn
            · rename_i he
              subst he
              simp at hn
              exact .inl ⟨rfl, hn.symm⟩
            · rename_i he
              exact .inr ⟨fun x => he x.symm, hn⟩
          refine ⟨by simpa using h.len, h.table, ?_, ?_, ?_, ?_, ?_, regs, h.nodup⟩
          · intro n c' hn hno
            rcases hcell hn with ⟨rfl, rfl⟩ | ⟨_, hn⟩
            · simp
            · exact h.quiet n c' hn hno
          · intro n c' v hn hv
            rcases hcell hn with ⟨rfl, rfl⟩ | ⟨_, hn⟩
            · simp at hv
              refine ⟨hv.symm, ?_⟩
              intro o ho
              rw [hp] at ho
              cases ho
              simp
            · exact ⟨(h.cells n c' v hn hv).1, fun o ho => more _ _ ((h.cells n c' v hn hv).2 o ho)⟩
          · intro n c' o hn hno ho
            rcases hcell hn with ⟨rfl, rfl⟩ | ⟨_, hn⟩
            · exact (h.heard n c o hc hno ho).snoc _
            · exact (h.heard n c' o hn hno ho).snoc _
          · intro k hk
            have hnew : ∃ (n : Nat) (p : Nat × Nat) (c' : SigState), ow[n]? = some (j, p) ∧
                (M.mgr.heap.set ref { c with signal := some .cancel, waker := none })[n]? = some c' ∧ c'.signal = some .cancel :=
              ⟨ref, p, _, hp, by rw [List.getElem?_set_self hlt], rfl⟩
            simp only [List.mem_append, List.mem_singleton, Prod.mk.injEq, and_true] at hk
            rcases hk with hk | rfl
            · obtain ⟨n, q, c', h1, h2, h3⟩ := h.accepted k hk
              refine ⟨n, q, c', h1, ?_, h3⟩
              dsimp only
              rw [List.getElem?_set_ne]
              · exact h2
              · rintro rfl
                rw [hc] at h2
                cases h2
                rw [hsig] at h3
                cases h3
            · exact hnew
          · intro r ρ i t hr ht
            exact (h.tasks r ρ i t hr ht).congr (fun _ _ h => h) (more _) rfl
  | task n i b =>
    rcases sys_step_cases hs with ⟨wf, h1, _⟩ | ⟨n, b, ρ₁, ρ₂, h1, _⟩ |
      ⟨n, k, b, ρ₁, t, g', ρ₂, h1, hρ, ht, hmm, rfl⟩ | ⟨n, h1, _⟩ | ⟨j, x, h1, _⟩
    all_goals cases h1
    have hRef := h.tasks n ρ₁ i t hρ ht
    have hLife := (runLife_reach hreach hρ).tasks t (List.mem_of_getElem? ht)
    have keep := keepsEvents_step hs
    unfold Sys.taskStep at hmm
    split at hmm
    · split at hmm
      · rename_i k hpc
        rw [hpc] at hRef
        cases hmm
        exact ⟨ow, h.frame hs rfl rfl (tasks_after hρ rfl (RefAt.congr (pc := k) hRef (fun _ _ h => h) (fun _ h => h) rfl) h.tasks)⟩
      · rename_i e es k hpc
        rw [hpc] at hRef hLife
        cases hmm
        have hT : RefAt ow M.answers { t with pc := .emitting es k, evs := t.evs ++ [e] } (.emitting es k) :=
          RefAt.congr (pc := k) hRef (fun _ _ h => h) (fun _ h => h) rfl
        cases e with
        | runJob id =>
          obtain ⟨rfl, hev⟩ := hLife.runJob
          have hfresh : ∀ o ∈ ow, o.2 ≠ (n, i) := by
            rintro ⟨j, r', i'⟩ ho he
            cases he
            obtain ⟨ref, ho⟩ := List.mem_iff_getElem?.1 ho
            obtain ⟨ρ, u, e1, e2, e3⟩ := h.regs ref j n i ho
            rw [hρ] at e1
            cases e1
            rw [ht] at e2
            cases e2
            rw [hev] at e3
            cases e3
          have ext : ∀ (m : Nat) (o : Owner), ow[m]? = some o → (ow ++ [(t.job.id, n, i)])[m]? = some o := by
            intro m o ho
            rw [List.getElem?_append_left (List.getElem?_eq_some_iff.1 ho).1]
            exact ho
          have cell : ∀ {m : Nat} {c : SigState}, (M.mgr.heap ++ [({} : SigState)])[m]? = some c →
              M.mgr.heap[m]? = some c ∨ c = {} := by
            intro m c hc
            rw [List.getElem?_append] at hc
            split at hc
            · exact .inl hc
            · exact .inr (List.mem_singleton.1 (List.mem_of_getElem? hc))
          have own : ∀ {m : Nat} {o : Owner} {c : SigState}, M.mgr.heap[m]? = some c → (ow ++ [(t.job.id, n, i)])[m]? = some o → ow[m]? = some o := by
            intro m o c hc ho
            rw [List.getElem?_append_left (by rw [h.len]; exact (List.getElem?_eq_some_iff.1 hc).1)] at ho
            exact ho
          refine ⟨ow ++ [(t.job.id, n, i)], ?_, ?_, ?_, ?_, ?_, ?_, ?_, ?_, ?_⟩
          · simp [SigMgr.noted, SigMgr.register, h.len]
          · intro j ref hg
            simp only [SigMgr.noted, SigMgr.register, SigMgr.getSignal, AMap.get?_insert] at hg
            split at hg
            · rename_i he
              subst he
              cases hg
              exact ⟨(n, i), by rw [← h.len]; simp⟩
            · obtain ⟨p, hp⟩ := h.table j ref hg
              exact ⟨p, ext _ _ hp⟩
          · intro m c hc hn
            rcases cell hc with hc | rfl
            · exact h.quiet m c hc hn
            · simp at hn
          · intro m c v hc hv
            rcases cell hc with hc | rfl
            · exact ⟨(h.cells m c v hc hv).1, fun o ho => (h.cells m c v hc hv).2 o (own hc ho)⟩
            · simp at hv
          · intro m c o hc hn ho
            rcases cell hc with hc | rfl
            · exact (h.heard m c o hc hn (own hc ho)).snoc _
            · simp at hn
          · intro j hj
            obtain ⟨m, p, c, h1, h2, h3⟩ := h.accepted j hj
            refine ⟨m, p, c, ext _ _ h1, ?_, h3⟩
            simp only [SigMgr.noted, SigMgr.register]
            rw [List.getElem?_append_left (List.getElem?_eq_some_iff.1 h2).1]
            exact h2
          · intro r ρ k u hr hk
            exact tasks_after (g' := M.mgr.noted (.runJob t.job.id)) (Q := fun u => RefAt (ow ++ [(t.job.id, n, i)]) M.answers u u.pc) hρ rfl
              (RefAt.congr hT ext (fun _ h => h) rfl) (fun r ρ k u hr hk => (h.tasks r ρ k u hr hk).congr ext (fun _ h => h) rfl) r ρ k u hr hk
          · intro ref j r k ho
            rw [List.getElem?_append] at ho
            split at ho
            · obtain ⟨ρ, u, e1, e2, e3⟩ := h.regs ref j r k ho
              obtain ⟨ρ', u', e1', e2', e3'⟩ := keep r k ρ u e1 e2
              exact ⟨ρ', u', e1', e2', e3' _ e3⟩
            · have := List.mem_singleton.1 (List.mem_of_getElem? ho)
              cases this
              exact ⟨_, _, List.getElem?_set_self (List.getElem?_eq_some_iff.1 hρ).1,
                List.getElem?_set_self (List.getElem?_eq_some_iff.1 ht).1, by simp⟩
          · rw [List.map_append, List.nodup_append]
            refine ⟨h.nodup, by simp, ?_⟩
            intro x hx y hy he
            obtain ⟨o, ho, rfl⟩ := List.mem_map.1 hx
            simp at hy
            exact hfresh o ho (he.trans hy)
        | jobCompleted r =>
          refine ⟨ow, h.len, ?_, h.quiet, h.cells, fun ref c o hc hn ho => (h.heard ref c o hc hn ho).snoc _, h.accepted,
            tasks_after hρ rfl hT h.tasks, ?_, h.nodup⟩
          · intro j ref hg
            simp only [SigMgr.noted, SigMgr.unregister, SigMgr.getSignal, AMap.get?_erase] at hg
            split at hg
            · cases hg
            · exact h.table j ref hg
          · intro ref j r k ho
            obtain ⟨ρ, u, e1, e2, e3⟩ := h.regs ref j r k ho
            obtain ⟨ρ', u', e1', e2', e3'⟩ := keep r k ρ u e1 e2
            exact ⟨ρ', u', e1', e2', e3' _ e3⟩
        | _ => exact ⟨ow, h.frame hs rfl rfl (tasks_after hρ rfl hT h.tasks)⟩
      · simp at hmm
    · split at hmm
      · rename_i s0 t0 hpc
        split at hmm
        · rename_i ref hg
          cases hmm
          refine ⟨ow, h.frame hs rfl rfl (tasks_after hρ rfl ?_ h.tasks)⟩
          exact ⟨h.table _ _ hg, by simp⟩
        · cases hmm
          exact ⟨ow, h.frame hs rfl rfl (tasks_after hρ rfl trivial h.tasks)⟩
      · simp at hmm
    · split at hmm
      · rename_i s0 t0 d ref hpc
        rw [hpc] at hRef
        split at hmm
        · rename_i c hc
          split at hmm
          · rename_i js' v hpoll
            cases hmm
            have hlt := (List.getElem?_eq_some_iff.1 hc).1
            have hsig : c.signal = some v ∧ js' = { c with isNotified := true } := by
              unfold SigState.poll at hpoll
              split at hpoll
              · simp at hpoll
              · split at hpoll
                · rename_i v' hv'
                  simp at hpoll
                  obtain ⟨rfl, rfl⟩ := hpoll
                  exact ⟨hv', rfl⟩
                · simp at hpoll
            obtain ⟨hv, rfl⟩ := hsig
            have hcell : ∀ {n : Nat} {c' : SigState}, (M.mgr.heap.set ref { c with isNotified := true })[n]? = some c' →
                n = ref ∧ c' = { c with isNotified := true } ∨ n ≠ ref ∧ M.mgr.heap[n]? = some c' := by
              intro n c' hn
              rw [List.getElem?_set] at hn
              split at hn
              · rename_i he
                subst he
                simp at hn
                exact .inl ⟨rfl, hn.symm⟩
              · rename_i he
                exact .inr ⟨fun x => he x.symm, hn⟩
            obtain ⟨⟨p, hp⟩, hcan⟩ := hRef
            have hvc := h.cells ref c v hc hv
            refine ⟨ow, by simpa using h.len, h.table, ?_, ?_, ?_, ?_, tasks_after hρ rfl ?_ h.tasks, ?_, h.nodup⟩
            · intro m c' hm hn
              rcases hcell hm with ⟨rfl, rfl⟩ | ⟨_, hm⟩
              · simp [hv]
              · exact h.quiet m c' hm hn
            · intro m c' v' hm hv'
              rcases hcell hm with ⟨rfl, rfl⟩ | ⟨_, hm⟩
              · exact h.cells m c v' hc hv'
              · exact h.cells m c' v' hm hv'
            · intro m c' o hm hn ho
              rcases hcell hm with ⟨rfl, rfl⟩ | ⟨_, hm⟩
              · rw [hp] at ho
                cases ho
                exact ⟨acts, [], n, i, M, t, s0, rfl, hreach, by simp [taskAt, hρ, ht], by rw [hpc]; rfl, rfl⟩
              · exact (h.heard m c' o hm hn ho).snoc _
            · intro j hj
              obtain ⟨m, q, c', h1, h2, h3⟩ := h.accepted j hj
              by_cases he : m = ref
              · subst he
                rw [hc] at h2
                cases h2
                exact ⟨m, q, _, h1, List.getElem?_set_self hlt, h3⟩
              · exact ⟨m, q, c', h1, by dsimp only; rw [List.getElem?_set_ne (fun x => he x.symm)]; exact h2, h3⟩
            · refine ⟨⟨p, hp⟩, fun _ => hvc.2 _ hp⟩
            · intro ref j r k ho
              obtain ⟨ρ, u, e1, e2, e3⟩ := h.regs ref j r k ho
              obtain ⟨ρ', u', e1', e2', e3'⟩ := keep r k ρ u e1 e2
              exact ⟨ρ', u', e1', e2', e3' _ e3⟩
          · simp at hmm
        · simp at hmm
      · simp at hmm
    · split at hmm
      · split at hmm
        · cases hmm
          exact ⟨ow, h.frame hs rfl rfl (tasks_after hρ rfl trivial h.tasks)⟩
        · split at hmm
          · cases hmm
            exact ⟨ow, h.frame hs rfl rfl (tasks_after hρ rfl trivial h.tasks)⟩
          · simp at hmm
      · simp at hmm
    · cases hst : t.step M.now b with
      | none => simp [hst] at hmm
      | some t' =>
        simp only [hst, Option.map_some, Option.some.injEq, Prod.mk.injEq] at hmm
        obtain ⟨rfl, rfl⟩ := hmm
        exact ⟨ow, h.frame hs rfl rfl (tasks_after hρ rfl (hRef.step hst) h.tasks)⟩

theorem cancelInv_reach {acts : List SysAct} {M : Sys} (h : SysReach acts M) : ∃ ow, CancelInv acts M ow :=
  runs_induct (P := fun acts M => ∃ ow, CancelInv acts M ow) ⟨[], cancelInv_init⟩
    (fun _ _ _ _ hr ⟨_, hi⟩ hs => cancelInv_step hr hi hs) h

end AstroRun
