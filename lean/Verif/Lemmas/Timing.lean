import Verif.Spec.Timing
import Verif.Lemmas.SystemLive

/-! # Time stamps: invariants of the engine -/

namespace AstroRun
open Spec

theorem Spec.Stamped.mono {a a' b b' : Time} {st : WorkflowState} {s e : Option Time} (h : Stamped a b st s e) (ha : a' ≤ a) (hb : b ≤ b') :
    Stamped a' b' st s e := by
  rcases h with h | ⟨h0, x, y, h1, h2, h3, h4, h5⟩
  · exact .inl h
  · exact .inr ⟨h0, x, y, h1, h2, Nat.le_trans ha h3, h4, Nat.le_trans h5 hb⟩

theorem Spec.JobStamps.mono {a a' b b' : Time} {r : JobRunResult} (h : JobStamps a b r) (ha : a' ≤ a) (hb : b ≤ b') : JobStamps a' b' r :=
  ⟨h.own.mono ha hb, h.skipped, h.steps⟩

/-- The steps so far, from `a` to `b`. -/
structure Timeline (a b : Time) (rs : List StepRunResult) : Prop where
  le : a ≤ b
  each : ∀ s ∈ rs, Stamped a b s.state s.startedAt s.completedAt
  seq : InSequence rs

theorem Timeline.mono {a b b' : Time} {rs : List StepRunResult} (h : Timeline a b rs) (hb : b ≤ b') : Timeline a b' rs :=
  ⟨Nat.le_trans h.le hb, fun s hs => (h.each s hs).mono (Nat.le_refl _) hb, h.seq⟩

theorem Timeline.done {a t0 now : Time} {rs : List StepRunResult} {r : StepRunResult} (h : Timeline a t0 rs) (ht : t0 ≤ now)
    (h0 : r.state ≠ .skipped) (h1 : r.startedAt = some t0) (h2 : r.completedAt = some now) : Timeline a now (rs ++ [r]) := by
  refine ⟨Nat.le_trans h.le ht, ?_, ?_⟩
  · intro s hs
    rcases List.mem_append.1 hs with hs | hs
    · exact (h.each s hs).mono (Nat.le_refl _) ht
    · obtain rfl := List.mem_singleton.1 hs
      exact .inr ⟨h0, t0, now, h1, h2, h.le, ht, Nat.le_refl _⟩
  · unfold InSequence
    rw [List.pairwise_append]
    refine ⟨h.seq, by simp, ?_⟩
    intro s hs s' hs' x y hx hy
    obtain rfl := List.mem_singleton.1 hs'
    rw [h1] at hy
    cases hy
    rcases h.each s hs with ⟨_, _, he⟩ | ⟨_, _, y', _, he, _, _, hle⟩
    · rw [he] at hx; cases hx
    · rw [he] at hx; cases hx; exact hle

theorem Timeline.skip {a b : Time} {rs : List StepRunResult} {r : StepRunResult} (h : Timeline a b rs)
    (h0 : r.state = .skipped) (h1 : r.startedAt = none) (h2 : r.completedAt = none) : Timeline a b (rs ++ [r]) := by
  refine ⟨h.le, ?_, ?_⟩
  · intro s hs
    rcases List.mem_append.1 hs with hs | hs
    · exact h.each s hs
    · obtain rfl := List.mem_singleton.1 hs
      exact .inl ⟨h0, h1, h2⟩
  · unfold InSequence
    rw [List.pairwise_append]
    refine ⟨h.seq, by simp, ?_⟩
    intro s hs s' hs' x y hx hy
    obtain rfl := List.mem_singleton.1 hs'
    rw [h1] at hy
    cases hy

/-- What is known about the stamps of a task at `pc`. -/
def TimesAt (lo now : Time) (t : SysTask) : SysPc → Prop
  | .init => True
  | .emitting _ k => TimesAt lo now t k
  | .next => lo ≤ t.startedAt ∧ Timeline t.startedAt now t.results ∧ t.state ≠ .skipped
  | .queued _ t0 | .calling _ t0 _ | .handling _ t0 _ | .select _ t0 _ _ =>
    lo ≤ t.startedAt ∧ Timeline t.startedAt t0 t.results ∧ t0 ≤ now ∧ t.state ≠ .skipped
  | .finished r | .sent r => JobStamps lo now r
  | .panicked _ => True

theorem TimesAt.mono {lo now now' : Time} {t : SysTask} {pc : SysPc} (h : TimesAt lo now t pc) (hn : now ≤ now') : TimesAt lo now' t pc := by
  induction pc with
  | emitting es k ih => exact ih h
  | next => exact ⟨h.1, h.2.1.mono hn, h.2.2⟩
  | queued | calling | handling | select => exact ⟨h.1, h.2.1, Nat.le_trans h.2.2.1 hn, h.2.2.2⟩
  | finished | sent => exact Spec.JobStamps.mono h (Nat.le_refl _) hn
  | _ => trivial

theorem TimesAt.congr {lo now : Time} {t t' : SysTask} {pc : SysPc} (h : TimesAt lo now t pc) (h1 : t'.startedAt = t.startedAt)
    (h2 : t'.results = t.results) (h3 : t'.state = t.state) : TimesAt lo now t' pc := by
  induction pc with
  | emitting es k ih => exact ih h
  | next => simpa [TimesAt, h1, h2, h3] using h
  | queued | calling | handling | select => simpa [TimesAt, h1, h2, h3] using h
  | finished | sent => exact h
  | _ => trivial

theorem stepResult_stamps (id : StepId) (r : RunResult) (a b : Time) :
    (stepResult id r a b).state ≠ .skipped ∧ (stepResult id r a b).startedAt = some a ∧ (stepResult id r a b).completedAt = some b := by
  cases r <;> exact ⟨by simp [stepResult], rfl, rfl⟩

theorem nextJobState_ne {st : WorkflowState} (h : st ≠ .skipped) (r : StepRunResult) : nextJobState st r ≠ .skipped := by
  unfold nextJobState
  split <;> simp_all

theorem nextWfState_ne {st : WorkflowState} (h : st ≠ .skipped) (r : JobRunResult) : nextWfState st r ≠ .skipped := by
  unfold nextWfState
  split
  · simp
  · split
    · simp
    · exact h

theorem TimesAt.step {lo now : Time} {t t' : SysTask} {a : TaskAct} (hlo : lo ≤ now) (h : TimesAt lo now t t.pc)
    (hs : t.step now a = some t') : TimesAt lo now t' t'.pc := by
  cases a <;> simp only [SysTask.step] at hs
  case check b =>
    split at hs
    · split at hs <;> cases hs
      · exact ⟨.inl ⟨rfl, rfl, rfl⟩, fun _ => rfl, fun x y hx => by cases hx⟩
      · exact ⟨hlo, ⟨Nat.le_refl _, by simp, by simp [InSequence]⟩, by simp⟩
    · simp at hs
  case nextStep b s =>
    split at hs
    · rename_i st rest hpc hrest
      rw [hpc] at h
      split at hs <;> cases hs
      · exact ⟨h.1, h.2.1.skip rfl rfl rfl, h.2.2⟩
      · exact ⟨h.1, h.2.1, Nat.le_refl _, h.2.2⟩
    · simp at hs
  case finishJob =>
    split at hs
    · rename_i hpc hrest
      rw [hpc] at h
      cases hs
      have hst : (t.finalResult now).state ≠ .skipped := by
        simp only [SysTask.finalResult]
        split
        · simp
        · exact h.2.2
      refine ⟨.inr ⟨hst, t.startedAt, now, rfl, rfl, h.1, h.2.1.le, Nat.le_refl _⟩, fun hx => absurd hx hst, ?_⟩
      intro x y hx hy
      cases hx
      cases hy
      exact ⟨h.2.1.each, h.2.1.seq⟩
    · simp at hs
  case refuse e =>
    split at hs
    · rename_i s t0 ref hpc
      rw [hpc] at h
      cases hs
      exact ⟨h.1, h.2.1.done h.2.2.1 (by simp [refusedResult]) rfl rfl, nextJobState_ne h.2.2.2 (refusedResult s.id t0 now)⟩
    · simp at hs
  case accept =>
    split at hs
    · rename_i s t0 ref hpc
      rw [hpc] at h
      cases hs
      exact h
    · simp at hs
  case enter =>
    split at hs
    · rename_i s t0 ref hpc
      rw [hpc] at h
      cases hs
      exact h
    · simp at hs
  case timer =>
    split at hs
    · rename_i s t0 d ref hpc
      rw [hpc] at h
      split at hs <;> cases hs
      exact h
    · simp at hs
  case recv =>
    split at hs
    · rename_i s t0 d ref hpc
      rw [hpc] at h
      split at hs
      · cases hs; exact h
      · split at hs
        · cases hs
          exact ⟨h.1, h.2.1.done h.2.2.1 (stepResult_stamps _ _ _ _).1 (stepResult_stamps _ _ _ _).2.1 (stepResult_stamps _ _ _ _).2.2,
            nextJobState_ne h.2.2.2 _⟩
        · simp at hs
      · simp at hs
    · simp at hs
  case push l => split at hs <;> cases hs; exact h.congr rfl rfl rfl
  case endStream r => split at hs <;> cases hs; exact h.congr rfl rfl rfl
  all_goals cases hs

/-- What a move of a job task does, apart from moving the task. -/
theorem taskStep_frame {g g' : SigMgr} {ρ ρ' : SysRun} {now : Time} {i : Nat} {t : SysTask} {a : TaskAct}
    (h : Sys.taskStep g ρ now i t a = some (g', ρ')) :
    ∃ t', ρ'.tasks = ρ.tasks.set i t' ∧ t'.key = t.key ∧ t'.job = t.job ∧ (ρ'.wf = ρ.wf ∧ ρ'.state = ρ.state) ∧ ρ'.pc = ρ.pc ∧ ρ'.startedAt = ρ.startedAt ∧
      ρ'.results = ρ.results ∧ ρ'.received = ρ.received ∧ ρ'.waiting = ρ.waiting ∧
      ((∃ e es k, t.pc = .emitting (e :: es) k ∧ t' = { t with pc := .emitting es k, evs := t.evs ++ [e] } ∧ ρ'.chan = ρ.chan) ∨
       (∃ k, t.pc = .emitting [] k ∧ t' = { t with pc := k } ∧ ρ'.chan = ρ.chan) ∨
       (∃ s t0 ref, t.pc = .queued s t0 ∧
          t' = { t with pc := .calling s t0 ref, sig := {}, stream := {}, evs := t.evs ++ [.runnerRun s.toCommand] } ∧ ρ'.chan = ρ.chan) ∨
       (∃ s t0, t.pc = .queued s t0 ∧ t' = { t with pc := .panicked s } ∧ ρ'.chan = ρ.chan) ∨
       (∃ s t0 d ref sg, t.pc = .select s t0 d ref ∧ t' = { t with pc := .handling s t0 ref, sig := sg } ∧ ρ'.chan = ρ.chan) ∨
       (∃ r, t.pc = .finished r ∧ t' = { t with pc := .sent r } ∧ (ρ'.chan = ρ.chan ∨ ρ'.chan = ρ.chan ++ [⟨i, t.key, r⟩])) ∨
       (t.step now a = some t' ∧ ρ'.chan = ρ.chan)) := by
  unfold Sys.taskStep at h
  split at h
  · split at h
    · rename_i k hpc
      cases h
      exact ⟨_, rfl, rfl, rfl, ⟨rfl, rfl⟩, rfl, rfl, rfl, rfl, rfl, .inr (.inl ⟨k, hpc, rfl, rfl⟩)⟩
    · rename_i e es k hpc
      cases h
      exact ⟨_, rfl, rfl, rfl, ⟨rfl, rfl⟩, rfl, rfl, rfl, rfl, rfl, .inl ⟨e, es, k, hpc, rfl, rfl⟩⟩
    · simp at h
  · split at h
    · rename_i s0 t0 hpc
      split at h
      · rename_i ref _
        cases h
        exact ⟨_, rfl, rfl, rfl, ⟨rfl, rfl⟩, rfl, rfl, rfl, rfl, rfl, .inr (.inr (.inl ⟨s0, t0, ref, hpc, rfl, rfl⟩))⟩
      · cases h
        exact ⟨_, rfl, rfl, rfl, ⟨rfl, rfl⟩, rfl, rfl, rfl, rfl, rfl, .inr (.inr (.inr (.inl ⟨s0, t0, hpc, rfl, rfl⟩)))⟩
    · simp at h
  · split at h
    · rename_i s0 t0 d ref hpc
      split at h
      · split at h
        · cases h
          exact ⟨_, rfl, rfl, rfl, ⟨rfl, rfl⟩, rfl, rfl, rfl, rfl, rfl, .inr (.inr (.inr (.inr (.inl ⟨s0, t0, d, ref, _, hpc, rfl, rfl⟩))))⟩
        · simp at h
      · simp at h
    · simp at h
  · split at h
    · rename_i r hpc
      split at h
      · cases h
        exact ⟨_, rfl, rfl, rfl, ⟨rfl, rfl⟩, rfl, rfl, rfl, rfl, rfl, .inr (.inr (.inr (.inr (.inr (.inl ⟨r, hpc, rfl, .inl rfl⟩)))))⟩
      · split at h
        · cases h
          exact ⟨_, rfl, rfl, rfl, ⟨rfl, rfl⟩, rfl, rfl, rfl, rfl, rfl, .inr (.inr (.inr (.inr (.inr (.inl ⟨r, hpc, rfl, .inr rfl⟩)))))⟩
        · simp at h
    · simp at h
  · cases hs : t.step now a with
    | none => simp [hs] at h
    | some t' =>
      simp only [hs, Option.map_some, Option.some.injEq, Prod.mk.injEq] at h
      obtain ⟨rfl, rfl⟩ := h
      exact ⟨t', rfl, (SysTask.step_job hs).2.1, (SysTask.step_job hs).1, ⟨rfl, rfl⟩, rfl, rfl, rfl, rfl, rfl,
        .inr (.inr (.inr (.inr (.inr (.inr ⟨rfl, rfl⟩)))))⟩

/-- Stamps through any move of a job task. -/
theorem TimesAt.move {g g' : SigMgr} {ρ ρ' : SysRun} {lo now : Time} {i : Nat} {t : SysTask} {a : TaskAct} (hlo : lo ≤ now)
    (ht : TimesAt lo now t t.pc) (h : Sys.taskStep g ρ now i t a = some (g', ρ')) :
    ∃ t', ρ'.tasks = ρ.tasks.set i t' ∧ t'.key = t.key ∧ t'.job = t.job ∧ TimesAt lo now t' t'.pc := by
  obtain ⟨t', h1, h2, h3, _, _, _, _, _, _, hc⟩ := taskStep_frame h
  refine ⟨t', h1, h2, h3, ?_⟩
  rcases hc with ⟨e, es, k, hpc, rfl, _⟩ | ⟨k, hpc, rfl, _⟩ | ⟨s, t0, ref, hpc, rfl, _⟩ | ⟨s, t0, hpc, rfl, _⟩ |
    ⟨s, t0, d, ref, sg, hpc, rfl, _⟩ | ⟨r, hpc, rfl, _⟩ | ⟨hs, _⟩
  · rw [hpc] at ht; exact TimesAt.congr (t' := { t with pc := .emitting es k, evs := t.evs ++ [e] }) (pc := k) ht rfl rfl rfl
  · rw [hpc] at ht; exact TimesAt.congr (t' := { t with pc := k }) (pc := k) ht rfl rfl rfl
  · rw [hpc] at ht; exact ht
  · trivial
  · rw [hpc] at ht; exact ht
  · rw [hpc] at ht; exact ht
  · exact ht.step hlo hs

/-- A message tells the answer of its sender. -/
def MsgFrom (ρ : SysRun) (msg : WfMsg) : Prop :=
  ∃ t, ρ.tasks[msg.sender]? = some t ∧ t.key = msg.key ∧ t.pc = .sent msg.result

/-- What is known about the stamps of a run. -/
structure RunTimes (now : Time) (ρ : SysRun) : Prop where
  state : ρ.state ≠ .skipped
  start : ρ.startedAt ≤ now
  fresh : ρ.pc = .init → ρ.tasks = [] ∧ ρ.received = [] ∧ ρ.results = [] ∧ ρ.chan = []
  tasks : ∀ (i : Nat) (t : SysTask), ρ.tasks[i]? = some t → ∃ lo, ρ.startedAt ≤ lo ∧ lo ≤ now ∧ TimesAt lo now t t.pc ∧
    ∀ d ∈ t.job.dependsOn, ∃ msg ∈ ρ.received, msg.key = d ∧ ∀ x, msg.result.completedAt = some x → x ≤ lo
  msgs : ∀ msg ∈ ρ.chan ++ ρ.received, MsgFrom ρ msg
  results : ∀ k jr, (k, jr) ∈ ρ.results → ∃ msg ∈ ρ.received, msg.key = k ∧ msg.result = jr
  finishing : ∀ b, ρ.pc = .finishing b → ρ.startedAt ≤ b ∧ b ≤ now ∧ ∀ k jr, (k, jr) ∈ ρ.results → JobStamps ρ.startedAt b jr
  done : ∀ res, ρ.pc = .completing res ∨ ρ.pc = .returned res → WorkflowStamps now res ∧
    (res.startedAt = none ∨ res.startedAt = some ρ.startedAt) ∧ ∀ k jr, (k, jr) ∈ res.jobs → (k, jr) ∈ ρ.results

theorem Spec.WorkflowStamps.mono {now now' : Time} {res : WorkflowRunResult} (h : WorkflowStamps now res) (hn : now ≤ now') : WorkflowStamps now' res := by
  rcases h with h | ⟨h0, a, b, h1, h2, h3, h4, h5⟩
  · exact .inl h
  · exact .inr ⟨h0, a, b, h1, h2, h3, Nat.le_trans h4 hn, h5⟩

theorem RunTimes.mono {now now' : Time} {ρ : SysRun} (h : RunTimes now ρ) (hn : now ≤ now') : RunTimes now' ρ := by
  refine ⟨h.state, Nat.le_trans h.start hn, h.fresh, ?_, h.msgs, h.results, ?_, ?_⟩
  · intro i t ht
    obtain ⟨lo, h1, h2, h3, h4⟩ := h.tasks i t ht
    exact ⟨lo, h1, Nat.le_trans h2 hn, h3.mono hn, h4⟩
  · intro b hb
    obtain ⟨h1, h2, h3⟩ := h.finishing b hb
    exact ⟨h1, Nat.le_trans h2 hn, h3⟩
  · intro res hr
    obtain ⟨h1, h2, h3⟩ := h.done res hr
    exact ⟨h1.mono hn, h2, h3⟩

/-- A delivered result has stamps between the start of the workflow and now. -/
theorem RunTimes.msg_stamps {now : Time} {ρ : SysRun} (h : RunTimes now ρ) {msg : WfMsg} (hm : msg ∈ ρ.chan ++ ρ.received) :
    JobStamps ρ.startedAt now msg.result := by
  obtain ⟨t, h1, _, h3⟩ := h.msgs msg hm
  obtain ⟨lo, l1, l2, l3, _⟩ := h.tasks _ t h1
  rw [h3] at l3
  exact Spec.JobStamps.mono l3 l1 (Nat.le_refl _)

theorem RunTimes.task {g g' : SigMgr} {now : Time} {ρ ρ' : SysRun} {i : Nat} {t : SysTask} {a : TaskAct} (h : RunTimes now ρ)
    (ht : ρ.tasks[i]? = some t) (hs : Sys.taskStep g ρ now i t a = some (g', ρ')) : RunTimes now ρ' := by
  obtain ⟨t', f1, f2, f3, f4, f5, f6, f7, f8, f9, hc⟩ := taskStep_frame hs
  obtain ⟨lo, l1, l2, l3, l4⟩ := h.tasks i t ht
  have hlen := (List.getElem?_eq_some_iff.1 ht).1
  have htimes : TimesAt lo now t' t'.pc := by
    obtain ⟨t'', e1, _, _, e4⟩ := l3.move l2 hs
    have : t'' = t' := by
      have := congrArg (fun l => l[i]?) (e1.symm.trans f1)
      simpa [hlen] using this
    exact this ▸ e4
  have hsent : ∀ r, t.pc = .sent r → False := by
    intro r hr
    rcases hc with ⟨e, es, k, hpc, _⟩ | ⟨k, hpc, _⟩ | ⟨s, t0, ref, hpc, _⟩ | ⟨s, t0, hpc, _⟩ |
      ⟨s, t0, d, ref, sg, hpc, _⟩ | ⟨r, hpc, _⟩ | ⟨hs, _⟩
    · rw [hr] at hpc; cases hpc
    · rw [hr] at hpc; cases hpc
    · rw [hr] at hpc; cases hpc
    · rw [hr] at hpc; cases hpc
    · rw [hr] at hpc; cases hpc
    · rw [hr] at hpc; cases hpc
    · cases a <;> simp [SysTask.step, hr, SysPc.runnerActive] at hs
  have hold : ∀ msg, MsgFrom ρ msg → MsgFrom ρ' msg := by
    rintro msg ⟨u, u1, u2, u3⟩
    refine ⟨u, ?_, u2, u3⟩
    rw [f1, List.getElem?_set_ne]
    · exact u1
    · rintro rfl
      rw [ht] at u1
      cases u1
      exact hsent _ u3
  refine ⟨by rw [f4.2]; exact h.state, f6 ▸ h.start, ?_, ?_, ?_, by rw [f7, f8]; exact h.results, by rw [f5, f6, f7]; exact h.finishing,
    by rw [f5, f6, f7]; exact h.done⟩
  · intro hp
    rw [f5] at hp
    obtain ⟨q1, _⟩ := h.fresh hp
    rw [q1] at hlen
    exact absurd hlen (Nat.not_lt_zero _)
  · intro n u hu
    rw [f1, List.getElem?_set] at hu
    rw [f6, f8]
    split at hu
    · have : t' = u := by simpa [hlen] using hu
      subst this
      exact ⟨lo, l1, l2, htimes, by rw [f3]; exact l4⟩
    · exact h.tasks n u hu
  · intro msg hm
    rw [f8] at hm
    have hchan : msg ∈ ρ.chan ++ ρ.received ∨ ∃ r, t.pc = .finished r ∧ t' = { t with pc := .sent r } ∧ msg = ⟨i, t.key, r⟩ := by
      rcases hc with ⟨e, es, k, _, _, hc⟩ | ⟨k, _, _, hc⟩ | ⟨s, t0, ref, _, _, hc⟩ | ⟨s, t0, _, _, hc⟩ |
        ⟨s, t0, d, ref, sg, _, _, hc⟩ | ⟨r, hpc, ht', hc⟩ | ⟨_, hc⟩
      · exact .inl (hc ▸ hm)
      · exact .inl (hc ▸ hm)
      · exact .inl (hc ▸ hm)
      · exact .inl (hc ▸ hm)
      · exact .inl (hc ▸ hm)
      · rcases hc with hc | hc
        · exact .inl (hc ▸ hm)
        · rw [hc] at hm
          simp only [List.mem_append, List.mem_singleton] at hm ⊢
          rcases hm with (hm | hm) | hm
          · exact .inl (.inl hm)
          · exact .inr ⟨r, hpc, ht', hm⟩
          · exact .inl (.inr hm)
      · exact .inl (hc ▸ hm)
    rcases hchan with hm | ⟨r, hpc, ht', rfl⟩
    · exact hold msg (h.msgs msg hm)
    · exact ⟨t', by rw [f1]; simp [hlen], f2, by rw [ht']⟩

theorem MsgFrom.add {ρ ρ' : SysRun} {msg : WfMsg} (h : MsgFrom ρ msg) {new : List SysTask} (ht : ρ'.tasks = ρ.tasks ++ new) : MsgFrom ρ' msg := by
  obtain ⟨t, h1, h2, h3⟩ := h
  refine ⟨t, ?_, h2, h3⟩
  rw [ht, List.getElem?_append_left (List.getElem?_eq_some_iff.1 h1).1]
  exact h1

theorem RunTimes.main {now : Time} {ρ ρ' : SysRun} {a : MainAct} (h : RunTimes now ρ) (hs : ρ.main now a = some ρ') : RunTimes now ρ' := by
  cases a <;> simp only [SysRun.main] at hs
  case check b =>
    split at hs
    · rename_i hpc
      obtain ⟨q1, q2, q3, q4⟩ := h.fresh hpc
      split at hs <;> cases hs
      · refine ⟨h.state, h.start, by simp, h.tasks, h.msgs, h.results, by simp, ?_⟩
        intro res hr
        simp at hr
        subst hr
        exact ⟨.inl ⟨rfl, rfl, rfl, rfl⟩, .inl rfl, by simp [skippedWfResult]⟩
      · refine ⟨by simp, Nat.le_refl _, by simp, ?_, h.msgs, h.results, by simp, by simp⟩
        intro i t ht
        simp [q1] at ht
    · simp at hs
  case spawn =>
    split at hs
    · cases hs
      exact ⟨h.state, h.start, by simp, h.tasks, h.msgs, h.results, by simp, by simp⟩
    · rename_i e rest hpc
      cases hs
      unfold SysRun.setupJob
      split
      · rename_i hd
        refine ⟨h.state, h.start, by simp, ?_, fun msg hm => (h.msgs msg hm).add rfl, h.results, by simp, by simp⟩
        intro i t ht
        simp only [SysRun.runJob, List.getElem?_append] at ht
        split at ht
        · exact h.tasks i t ht
        · obtain rfl := List.mem_singleton.1 (List.mem_of_getElem? ht)
          refine ⟨now, h.start, Nat.le_refl _, trivial, ?_⟩
          intro d hdd
          rw [List.isEmpty_iff.1 hd] at hdd
          cases hdd
      · refine ⟨?_, h.start, by simp, h.tasks, h.msgs, h.results, by simp, by simp⟩
        simp only
        split
        · exact h.state
        · simp
    · simp at hs
  case recv =>
    split at hs
    · rename_i msg chan hpc hch
      cases hs
      have hmsg : msg ∈ ρ.chan ++ ρ.received := by rw [hch]; simp
      have hall : ∀ x ∈ chan ++ (ρ.received ++ [msg]), x ∈ ρ.chan ++ ρ.received := by
        intro x hx
        rw [hch]
        simp only [List.mem_append, List.mem_cons, List.not_mem_nil, or_false] at hx ⊢
        tauto
      have hres : ∀ k jr, (k, jr) ∈ ρ.results.insert msg.key msg.result → ∃ m ∈ ρ.received ++ [msg], m.key = k ∧ m.result = jr := by
        intro k jr hk
        rcases AMap.mem_insert.1 hk with hk | ⟨hk, _⟩
        · cases hk
          exact ⟨msg, by simp, rfl, rfl⟩
        · obtain ⟨m, hm, h1⟩ := h.results k jr hk
          exact ⟨m, List.mem_append_left _ hm, h1⟩
      -- after booking
      have hbook : ∀ pc st, st ≠ .skipped → (∀ b, pc ≠ .finishing b) → (∀ r, pc ≠ .completing r) → (∀ r, pc ≠ .returned r) → pc ≠ .init →
          RunTimes now { ({ ρ with chan := chan }.book msg) with pc := pc, state := st } := by
        intro pc st n0 n1 n2 n3 n4
        refine ⟨n0, h.start, fun hp => absurd hp n4, ?_, ?_, hres, fun b hb => absurd hb (n1 b), ?_⟩
        · intro i t ht
          obtain ⟨lo, l1, l2, l3, l4⟩ := h.tasks i t ht
          refine ⟨lo, l1, l2, l3, fun d hd => ?_⟩
          obtain ⟨m, hm, hk⟩ := l4 d hd
          exact ⟨m, List.mem_append_left _ hm, hk⟩
        · intro m hm
          exact h.msgs m (hall m hm)
        · rintro res (hr | hr)
          · exact absurd hr (n2 res)
          · exact absurd hr (n3 res)
      unfold SysRun.handle
      simp only
      split
      · have hb := hbook .loop ρ.state h.state (by simp) (by simp) (by simp) (by simp)
        refine ⟨?_, h.start, by simp, hb.tasks, hb.msgs, hres, ?_, by simp⟩
        · simp only
          split
          · simp
          · exact nextWfState_ne h.state _
        intro b hb'
        simp only [WfPc.finishing.injEq] at hb'
        subst hb'
        refine ⟨h.start, Nat.le_refl _, ?_⟩
        intro k jr hk
        obtain ⟨m, hm, _, rfl⟩ := hres k jr hk
        exact h.msg_stamps (hall m (List.mem_append_right _ hm))
      · have hb := hbook .loop (({ ρ with chan := chan }.book msg).state) (nextWfState_ne h.state _) (by simp) (by simp) (by simp) (by simp)
        have hpc' : ({ ρ with chan := chan }.book msg).pc = .loop := hpc
        have he : ({ ({ ρ with chan := chan }.book msg) with pc := .loop, state := ({ ρ with chan := chan }.book msg).state } : SysRun) =
            { ρ with chan := chan }.book msg := by
          rw [← hpc']
        rw [he] at hb
        generalize hβ : ({ ρ with chan := chan }.book msg) = β at hb hpc' ⊢
        unfold SysRun.rescan
        rw [foldl_runJob_tasks]
        refine ⟨hb.state, hb.start, by simp [hpc'], ?_, fun m hm => (hb.msgs m hm).add rfl, hb.results, by simp [hpc'], by simp [hpc']⟩
        intro i t ht
        simp only [List.getElem?_append] at ht
        split at ht
        · exact hb.tasks i t ht
        · obtain ⟨e, he, rfl⟩ := List.mem_map.1 (List.mem_of_getElem? ht)
          refine ⟨now, hb.start, Nat.le_refl _, trivial, ?_⟩
          intro d hd
          obtain ⟨_, he2⟩ := List.mem_filter.1 he
          simp only [Bool.and_eq_true] at he2
          have hc := List.all_eq_true.1 he2.2 d hd
          obtain ⟨⟨_, jr⟩, hjr, rfl⟩ := List.mem_map.1 ((AMap.contains_iff _ _).1 hc)
          obtain ⟨m, hm, hk, _⟩ := hb.results _ jr hjr
          refine ⟨m, hm, hk, ?_⟩
          intro x hx
          rcases (hb.msg_stamps (List.mem_append_right _ hm)).own with ⟨_, _, hn⟩ | ⟨_, _, y, _, hy, _, _, hle⟩
          · rw [hn] at hx; cases hx
          · rw [hy] at hx; cases hx; exact hle
    · simp at hs
  case announce =>
    split at hs
    · rename_i b hpc
      cases hs
      obtain ⟨f1, f2, f3⟩ := h.finishing b hpc
      refine ⟨h.state, h.start, by simp, h.tasks, h.msgs, h.results, by simp, ?_⟩
      intro res hr
      simp at hr
      subst hr
      exact ⟨.inr ⟨h.state, ρ.startedAt, b, rfl, rfl, f1, f2, f3⟩, .inr rfl, fun _ _ hk => hk⟩
    · simp at hs
  case complete =>
    split at hs
    · rename_i r hpc
      cases hs
      refine ⟨h.state, h.start, by simp, h.tasks, h.msgs, h.results, by simp, ?_⟩
      intro res hr
      simp at hr
      subst hr
      exact h.done r (.inl hpc)
    · simp at hs

theorem runTimes_reach {acts : List SysAct} {M : Sys} (h : SysReach acts M) :
    ∀ (r : Nat) (ρ : SysRun), M.runs[r]? = some ρ → RunTimes M.now ρ := by
  refine runs_induct (P := fun _ M => ∀ (r : Nat) (ρ : SysRun), M.runs[r]? = some ρ → RunTimes M.now ρ) ?_ ?_ h
  · intro r ρ hr
    simp at hr
  · intro _ M a M' _ ih hs r ρ hr
    rcases sys_step_cases hs with ⟨wf, rfl, rfl⟩ | ⟨n, b, ρ₁, ρ₂, rfl, hρ, hm, rfl⟩ |
      ⟨n, i, b, ρ₁, t, g', ρ₂, rfl, hρ, ht, hm, rfl⟩ | ⟨n, rfl, rfl⟩ | ⟨j, x, rfl, rfl⟩
    · simp only [List.getElem?_append] at hr
      split at hr
      · exact ih r ρ hr
      · obtain rfl := List.mem_singleton.1 (List.mem_of_getElem? hr)
        exact ⟨by simp, Nat.zero_le _, fun _ => ⟨rfl, rfl, rfl, rfl⟩, by simp, by simp, by simp, by simp, by simp⟩
    · simp only [List.getElem?_set] at hr
      split at hr
      · split at hr
        · cases hr; exact (ih n ρ₁ hρ).main hm
        · cases hr
      · exact ih r ρ hr
    · simp only [List.getElem?_set] at hr
      split at hr
      · split at hr
        · cases hr; exact (ih n ρ₁ hρ).task ht hm
        · cases hr
      · exact ih r ρ hr
    · exact (ih r ρ hr).mono (Nat.le_add_right _ _)
    · exact ih r ρ hr

end AstroRun
