import Verif.Props.FairCancel
import Verif.Props.FairRemoteFutures
import Verif.Lemmas.OnlyCall

/-! # C126: a cancelled step ends, or its server is told -/

namespace AstroRun
open Spec

namespace RemoteCancelLem
open FairLem FairLocalLem FairRemoteLem CancelFairLem SilentLem

/-- What the engine itself does in an endless execution, in three moves each. -/
theorem shadow_three {f : Nat → RemoteEngine} {a : Nat → RemoteEngineAct} (hE : RemoteEndless f a)
    (hap : ∀ n, Apart (remoteEngineMoves (firstMoves a n))) (hk : ∀ n, RemoteEngineHooksKeepJobs (firstMoves a n)) :
    ∃ x0 x1 x2 s1 s2, (∀ n, Thrice (f n).sys (x0 n) (x1 n) (x2 n) (s1 n) (s2 n) (f (n + 1)).sys) ∧
      (∀ n, Shadow3 (f n) (a n) (x0 n) (x1 n) (x2 n)) ∧ Endless (every (fun n => (f n).sys) s1 s2) (every x0 x1 x2) ∧
      (∀ n, Apart (firstMoves (every x0 x1 x2) n)) ∧ ∀ n, HooksKeepJobs (firstMoves (every x0 x1 x2) n) := by
  have hsh : ∀ n, ∃ x0 x1 x2 s1 s2, Thrice (f n).sys x0 x1 x2 s1 s2 (f (n + 1)).sys ∧ Shadow3 (f n) (a n) x0 x1 x2 :=
    fun n => remote_shadow (hE.moves n)
  choose x0 x1 x2 s1 s2 hx hxs using hsh
  let F := every (fun n => (f n).sys) s1 s2
  let X := every x0 x1 x2
  have F0 : ∀ n, F (3 * n) = (f n).sys := every_0 _ _ _
  have F1 : ∀ n, F (3 * n + 1) = s1 n := every_1 _ _ _
  have F2 : ∀ n, F (3 * n + 2) = s2 n := every_2 _ _ _
  have X0 : ∀ n, X (3 * n) = x0 n := every_0 _ _ _
  have X1 : ∀ n, X (3 * n + 1) = x1 n := every_1 _ _ _
  have X2 : ∀ n, X (3 * n + 2) = x2 n := every_2 _ _ _
  have hE' : Endless F X := by
    refine ⟨?_, fun k => ?_⟩
    · have := F0 0
      rw [Nat.mul_zero] at this
      rw [this, hE.start]; rfl
    · obtain ⟨n, rfl | rfl | rfl⟩ := three_cases k
      · rw [F0, X0, F1]; exact (hx n).1
      · rw [F1, X1, show 3 * n + 1 + 1 = 3 * n + 2 by omega, F2]; exact (hx n).2.1
      · rw [F2, X2, show 3 * n + 2 + 1 = 3 * (n + 1) by omega, F0]; exact (hx n).2.2
  refine ⟨x0, x1, x2, s1, s2, hx, hxs, hE', ?_, ?_⟩
  · intro n
    obtain ⟨h1, h2⟩ := shadow_apart hxs n
    have hA : Apart (firstMoves X (3 * n)) := by
      have := hap n
      exact ⟨h1 ▸ this.distinct, h1 ▸ this.own, fun r i b s hm => h1 ▸ this.hooks r i b s (h2 r i b s hm)⟩
    have : firstMoves X (3 * n) = firstMoves X n ++ ((List.range (2 * n)).map fun j => X (n + j)) := by
      unfold firstMoves
      rw [show 3 * n = n + 2 * n by omega, List.range_add, List.map_append, List.map_map]
      rfl
    rw [this] at hA
    exact hA.prefix
  · intro k
    induction k with
    | zero => intro pre r i b s post he; simp [firstMoves] at he
    | succ k ih =>
      rw [firstMoves_succ]
      refine ih.snoc (endless_reach hE' k) ?_
      intro r i b s he ρ t h1 h2
      have he : X k = _ := he
      have h1 : (F k).runs[r]? = some ρ := h1
      obtain ⟨n, rfl | rfl | rfl⟩ := three_cases k
      · obtain ⟨g1, g2⟩ := shadow_hidden (hxs n)
        rw [X0] at he
        rw [F0] at h1
        by_cases hb : ∃ c, a n = .sys c
        · obtain ⟨c, hc⟩ := hb
          have := (g2 c hc).1
          rw [he] at this
          subst this
          have := hk (n + 1)
          rw [firstMoves_succ, hc] at this
          exact this (firstMoves a n) r i b s [] rfl (f n) (endless_remote hE n) t (by simp only [taskAt]; rw [h1]; exact h2)
        · exact absurd he ((hidden_quiet (g1 _ (.inr (.inr ⟨fun c e => hb ⟨c, e⟩, rfl⟩)))).2 r i b s)
      · rw [X1] at he
        exact absurd he ((hidden_quiet ((shadow_hidden (hxs n)).1 _ (.inl rfl))).2 r i b s)
      · rw [X2] at he
        exact absurd he ((hidden_quiet ((shadow_hidden (hxs n)).1 _ (.inr (.inl rfl)))).2 r i b s)

/-- The other two of three. -/
theorem shadow_quiet {E : RemoteEngine} {a : RemoteEngineAct} {x0 x1 x2 : SysAct} (hs : Shadow3 E a x0 x1 x2) :
    ∀ y, y = x1 ∨ y = x2 ∨ (∀ b, a ≠ .sys b) ∧ y = x0 → y = .tick 0 ∨ ∃ r' i', IsWrite r' i' y ∨ y = .task r' i' .accept := by
  intro y hy
  cases a with
  | sys b =>
    rcases hy with rfl | rfl | ⟨hb, _⟩
    · exact .inl hs.2.2.1
    · exact .inl hs.2.2.2
    · exact absurd rfl (hb b)
  | dispatched r' i' sv =>
    rcases hy with rfl | rfl | ⟨_, rfl⟩
    · exact .inl hs.2.1
    · exact .inl hs.2.2
    · exact .inr ⟨r', i', .inr hs.1⟩
  | noRunner r' i' =>
    rcases hy with rfl | rfl | ⟨_, rfl⟩
    · exact .inr ⟨r', i', .inl hs.2.1⟩
    · exact .inr ⟨r', i', .inr hs.2.2.1⟩
    · exact .inr ⟨r', i', .inl hs.1⟩
  | net r' i' k b => exact (hs y (by rcases hy with h | h | ⟨_, h⟩ <;> simp [h])).imp_right fun h => ⟨r', i', .inl h.1⟩
  | signalFailed r' i' k b => exact (hs y (by rcases hy with h | h | ⟨_, h⟩ <;> simp [h])).imp_right fun h => ⟨r', i', .inl h.1⟩
  | stepCompleted r' sv res =>
    rcases hy with rfl | rfl | ⟨_, rfl⟩
    · exact .inl hs.2.1
    · exact .inl hs.2.2
    · exact .inl hs.1

/-- A signal that can be passed on to a step still can after a move of runners. -/
theorem signal_possible_stays {M M' : Sys} {r i : Nat} {y : SysAct} (hs : M.step y = some M')
    (hy : y = .tick 0 ∨ ∃ r' i', IsWrite r' i' y ∨ y = .task r' i' .accept) (h : M.step (.task r i .jobSignal) ≠ none) :
    M'.step (.task r i .jobSignal) ≠ none := by
  rcases hy with rfl | ⟨r', i', hy⟩
  · rw [FairLocalLem.tick_zero] at hs
    cases hs; exact h
  obtain ⟨b, rfl, hb⟩ : ∃ b, y = .task r' i' b ∧ ((∃ l, b = .push l) ∨ (∃ z, b = .endStream z) ∨ b = .accept) := by
    rcases hy with (⟨l, rfl⟩ | ⟨z, rfl⟩) | rfl
    · exact ⟨_, rfl, .inl ⟨l, rfl⟩⟩
    · exact ⟨_, rfl, .inr (.inl ⟨z, rfl⟩)⟩
    · exact ⟨_, rfl, .inr (.inr rfl)⟩
  clear hy
  rcases sys_step_cases hs with ⟨wf, h1, _⟩ | ⟨n, b', ρ₁, ρ₂, h1, _⟩ |
          ⟨n, j, b', ρ, t, g', ρ', h1, hρ, htt, hmm, e⟩ | ⟨n, h1, _⟩ | ⟨j, x, h1, _⟩
  all_goals cases h1
  obtain ⟨t', e1, _⟩ := taskStep_frame hmm
  have hi := (List.getElem?_eq_some_iff.1 htt).1
  have hr := (List.getElem?_eq_some_iff.1 hρ).1
  have hg : g' = M.mgr := by
    rcases hb with ⟨l, rfl⟩ | ⟨z, rfl⟩ | rfl <;> simp only [Sys.taskStep, Option.map_eq_some_iff, Prod.mk.injEq] at hmm <;>
      obtain ⟨_, _, h, _⟩ := hmm <;> exact h.symm
  have key : ∀ (N : Sys) (u : SysTask), taskAt N r i = some u → (N.step (.task r i .jobSignal) ≠ none ↔
      ∃ s t0 d ref js, u.pc = .select s t0 d ref ∧ N.mgr.heap[ref]? = some js ∧ (js.poll 0).2 ≠ none) := by
    intro N u hu
    obtain ⟨ρu, hρu, htu⟩ := taskAt_some hu
    simp only [Sys.step, hρu, htu, Sys.taskStep, Option.bind_eq_bind, Option.bind_some]
    constructor
    · intro hne
      cases hpc : u.pc with
      | select s t0 d ref =>
        simp only [hpc] at hne
        cases hh : N.mgr.heap[ref]? with
        | none => simp [hh] at hne
        | some js =>
          refine ⟨s, t0, d, ref, js, rfl, hh, ?_⟩
          simp only [hh] at hne
          cases hp : js.poll 0 with
          | mk a o => cases o <;> simp [hp] at hne ⊢
      | _ => simp [hpc] at hne
    · rintro ⟨s, t0, d, ref, js, hpc, hh, hq⟩
      simp only [hpc, hh]
      cases hp : js.poll 0 with
      | mk a o => cases o <;> simp [hp] at hq ⊢
  have hm' : M'.mgr = M.mgr := by rw [e]; exact hg
  by_cases he : r = r' ∧ i = i'
  · obtain ⟨rfl, rfl⟩ := he
    have hT : taskAt M r i = some t := by simp [taskAt, hρ, htt]
    have hT' : taskAt M' r i = some t' := by
      rw [e]
      simp only [taskAt, List.getElem?_set_self hr, Option.bind_some]
      rw [e1]
      simp [hi]
    obtain ⟨s, t0, d, ref, js, hpc, hh, hq⟩ := (key M t hT).1 h
    refine (key M' t' hT').2 ⟨s, t0, d, ref, js, ?_, by rw [hm']; exact hh, hq⟩
    have hact : t.pc.runnerActive = true := by rw [hpc]; rfl
    have hE : ∀ u g, Sys.taskStep M.mgr ρ M.now i t b = some (g, ρ.setTask i u) → t' = u := by
      intro u g hu
      rw [hmm] at hu
      simp only [Option.some.injEq, Prod.mk.injEq] at hu
      have := congrArg (fun q => q.tasks[i]?) hu.2
      simp only [e1, SysRun.setTask] at this
      simpa [hi] using this
    rcases hb with ⟨l, rfl⟩ | ⟨z, rfl⟩ | rfl
    · have := hE _ _ (by simp only [Sys.taskStep, SysTask.step, hact, if_true]; rfl)
      subst this
      exact hpc
    · have := hE _ _ (by simp only [Sys.taskStep, SysTask.step, hact, if_true]; rfl)
      subst this
      exact hpc
    · simp [Sys.taskStep, SysTask.step, hpc] at hmm
  · have hcong : taskAt M' r i = taskAt M r i := by rw [e]; exact taskAt_set_ne hρ e1 he
    cases hu : taskAt M r i with
    | none =>
      exfalso
      apply h
      simp only [taskAt] at hu
      simp only [Sys.step, Option.bind_eq_bind]
      cases hq : M.runs[r]? with
      | none => rfl
      | some q =>
        rw [hq] at hu
        simp only [Option.bind_some] at hu ⊢
        rw [hu]; rfl
    | some u =>
      obtain ⟨s, t0, d, ref, js, hpc, hh, hq⟩ := (key M u hu).1 h
      exact (key M' u (by rw [hcong]; exact hu)).2 ⟨s, t0, d, ref, js, hpc, by rw [hm']; exact hh, hq⟩

section
variable {f : Nat → RemoteEngine} {a : Nat → RemoteEngineAct} {x0 x1 x2 : Nat → SysAct} {s1 s2 : Nat → Sys} {r i : Nat}

/-- The job tasks. -/
theorem work_fair3 (hjob : WeaklyFair RemoteEngine.step f a (remoteJobOf r i)) (hxs : ∀ n, Shadow3 (f n) (a n) (x0 n) (x1 n) (x2 n)) :
    WeaklyFair Sys.step (every (fun n => (f n).sys) s1 s2) (every x0 x1 x2) (workOf r i) := by
  rintro ⟨n, hn⟩
  have := hjob ⟨n, fun m hm => by
    obtain ⟨y, hy, hp⟩ := hn (3 * m) (by omega)
    rw [every_0] at hp
    exact rjob_possible hy hp⟩
  intro n
  obtain ⟨m, hm, hc⟩ := this n
  have hs := hxs m
  rcases hc with ⟨y, hb, hw⟩ | ⟨sv, hb⟩ | hb
  · rw [hb] at hs
    exact ⟨3 * m, by omega, by show workOf r i (every x0 x1 x2 (3 * m)); rw [every_0, hs.1]; exact hw⟩
  · rw [hb] at hs
    exact ⟨3 * m, by omega, by show workOf r i (every x0 x1 x2 (3 * m)); rw [every_0, hs.1]; exact workOf_iff.2 ⟨_, rfl, trivial⟩⟩
  · rw [hb] at hs
    exact ⟨3 * m + 2, by omega, by show workOf r i (every x0 x1 x2 (3 * m + 2)); rw [every_2, hs.2.2.1]; exact workOf_iff.2 ⟨_, rfl, trivial⟩⟩

/-- The branches of their `select!`. -/
theorem branch_fair3 {b : TaskAct} (hb : (SysAct.task r i b).byRunner = false)
    (hst : ∀ (M M' : Sys) (y : SysAct), M.step y = some M' → (y = .tick 0 ∨ ∃ r' i', IsWrite r' i' y ∨ y = .task r' i' .accept) →
      M.step (.task r i b) ≠ none → M'.step (.task r i b) ≠ none)
    (hrecv : StronglyFair RemoteEngine.step f a fun y => y = .sys (.task r i b))
    (hx : ∀ n, Thrice (f n).sys (x0 n) (x1 n) (x2 n) (s1 n) (s2 n) (f (n + 1)).sys)
    (hxs : ∀ n, Shadow3 (f n) (a n) (x0 n) (x1 n) (x2 n)) :
    StronglyFair Sys.step (every (fun n => (f n).sys) s1 s2) (every x0 x1 x2) fun y => y = .task r i b := by
  intro hf
  have := hrecv (by
    intro n
    obtain ⟨k, hk, y, hy, hp⟩ := hf (3 * n)
    have hy : y = _ := hy
    subst hy
    obtain ⟨m, rfl | rfl | rfl⟩ := three_cases k
    · rw [every_0] at hp
      exact ⟨m, by omega, _, rfl, rsys_possible hb hp⟩
    · rw [every_1] at hp
      have p2 := hst _ _ _ (hx m).2.1 (shadow_quiet (hxs m) _ (.inl rfl)) hp
      have p3 := hst _ _ _ (hx m).2.2 (shadow_quiet (hxs m) _ (.inr (.inl rfl))) p2
      exact ⟨m + 1, by omega, _, rfl, rsys_possible hb p3⟩
    · rw [every_2] at hp
      have p3 := hst _ _ _ (hx m).2.2 (shadow_quiet (hxs m) _ (.inr (.inl rfl))) hp
      exact ⟨m + 1, by omega, _, rfl, rsys_possible hb p3⟩)
  intro n
  obtain ⟨m, hm, hc⟩ := this n
  have hs := hxs m
  rw [show a m = _ from hc] at hs
  exact ⟨3 * m, by omega, by show every x0 x1 x2 (3 * m) = _; rw [every_0]; exact hs.1⟩
end

/-- A runner that is called answers, if job tasks are not starved. -/
theorem comes_to_read {f : Nat → Sys} {x : Nat → SysAct} (hE : Endless f x) {r i K : Nat} (hwork : WeaklyFair Sys.step f x (workOf r i))
    (hact : ∀ k, K ≤ k → ∃ t, taskAt (f k) r i = some t ∧ t.pc.runnerActive = true) :
    ∃ m, K ≤ m ∧ ∀ k, m ≤ k → ∃ t, taskAt (f k) r i = some t ∧ t.pc.reading = true := by
  obtain ⟨m, t, hm, ht, hr⟩ : ∃ m t, K ≤ m ∧ taskAt (f m) r i = some t ∧ t.pc.reading = true := by
    apply Classical.byContradiction
    intro hno
    have hcalling : ∀ k t, K ≤ k → taskAt (f k) r i = some t → ∃ s t0 ref, t.pc = .calling s t0 ref := by
      intro k t hk ht
      obtain ⟨t', h1, h2⟩ := hact k hk
      rw [ht] at h1; cases h1
      refine active_cases h2 ?_
      cases hq : t.pc.reading with
      | false => rfl
      | true => exact absurd ⟨k, t, hk, ht, hq⟩ hno
    obtain ⟨k, hk, hc⟩ := hwork ⟨K, fun k hk => by
      obtain ⟨t, h1, _⟩ := hact k hk
      obtain ⟨s, t0, ref, hpc⟩ := hcalling k t hk h1
      obtain ⟨ρ, q1, q2⟩ := taskAt_some h1
      exact ⟨.task r i .accept, workOf_iff.2 ⟨_, rfl, trivial⟩, by simp [Sys.step, q1, q2, Sys.taskStep, SysTask.step, hpc]⟩⟩ K
    obtain ⟨t, h1, _⟩ := hact k hk
    obtain ⟨t', h1', _⟩ := hact (k + 1) (by omega)
    obtain ⟨s, t0, ref, hpc⟩ := hcalling k t hk h1
    obtain ⟨s', t0', ref', hpc'⟩ := hcalling (k + 1) t' (by omega) h1'
    obtain ⟨b, hb, hw⟩ := workOf_iff.1 hc
    have hs := hE.moves k
    rw [hb] at hs
    obtain ⟨ρ, v, v', hρ, e1, e2, _, g, ρ', e3, e4⟩ := task_act hs
    rw [h1] at e1; cases e1
    rw [h1'] at e2; cases e2
    obtain ⟨ρ2, q1, q2⟩ := taskAt_some h1
    rw [hρ] at q1; cases q1
    have hlen := (List.getElem?_eq_some_iff.1 q2).1
    cases b <;> simp [Sys.taskStep, SysTask.step, hpc, FairLem.isWork] at e3 hw
    all_goals
      obtain ⟨_, rfl⟩ := e3
      simp [SysRun.setTask, hlen] at e4
      subst e4
      simp [SysTask.stepDone, SysTask.emitThen] at hpc'
  refine ⟨m, hm, fun k hk => ?_⟩
  induction k with
  | zero => rw [Nat.le_zero.1 hk] at ht; exact ⟨t, ht, hr⟩
  | succ k ih =>
    rcases Nat.lt_or_ge k m with h | h
    · have e : m = k + 1 := by omega
      rw [← e]; exact ⟨t, ht, hr⟩
    · obtain ⟨u, h1, h2⟩ := ih h
      rcases task_between (hE.moves k) h1 with ⟨h3, _⟩ | ⟨b, hb⟩
      · exact ⟨u, h3, h2⟩
      · have hst := hE.moves k
        rw [hb] at hst
        obtain ⟨ρ, t1, t2, hρ, e1, e2, _, g, ρ', e3, e4⟩ := task_act hst
        rw [h1] at e1; cases e1
        obtain ⟨ρ2, q1, q2⟩ := taskAt_some h1
        rw [hρ] at q1; cases q1
        obtain ⟨t3, g1, g2⟩ := hact (k + 1) (by omega)
        rw [e2] at g1; cases g1
        exact ⟨t2, e2, reading_stays q2 e3 e4 h2 g2⟩

/-- Moves of runners leave the results of steps alone. -/
theorem runner_results {M M' : Sys} {y : SysAct} (hs : M.step y = some M')
    (hy : y = .tick 0 ∨ ∃ r' i', IsWrite r' i' y ∨ y = .task r' i' .accept) {r i : Nat} {t : SysTask}
    (ht : taskAt M r i = some t) : ∃ t', taskAt M' r i = some t' ∧ t'.results = t.results := by
  rcases task_between hs ht with ⟨h, _⟩ | ⟨b, rfl⟩
  · exact ⟨t, h, rfl⟩
  · have hb : (∃ l, b = .push l) ∨ (∃ z, b = .endStream z) ∨ b = .accept := by
      rcases hy with h | ⟨r', i', (⟨l, h⟩ | ⟨z, h⟩) | h⟩ <;> cases h
      · exact .inl ⟨l, rfl⟩
      · exact .inr (.inl ⟨z, rfl⟩)
      · exact .inr (.inr rfl)
    obtain ⟨ρ, t1, t2, hρ, e1, e2, _, g, ρ', e3, e4⟩ := task_act hs
    rw [ht] at e1; cases e1
    obtain ⟨ρ2, q1, q2⟩ := taskAt_some ht
    rw [hρ] at q1; cases q1
    have hlen := (List.getElem?_eq_some_iff.1 q2).1
    refine ⟨t2, e2, ?_⟩
    rcases hb with ⟨l, rfl⟩ | ⟨z, rfl⟩ | rfl <;>
      simp only [Sys.taskStep, Option.map_eq_some_iff, Prod.mk.injEq] at e3 <;> obtain ⟨u, h1, _, rfl⟩ := e3 <;>
      simp [SysRun.setTask, hlen] at e4 <;> subst e4 <;>
      simp only [SysTask.step] at h1 <;> (repeat' split at h1) <;> first | contradiction | (cases h1; rfl)

/-- Infinitely many are more than three. -/
theorem often_many {α : Type} {a : Nat → α} {p : α → Bool} (h : Often fun n => p (a n) = true) (c : Nat) :
    ∃ n, c ≤ ((firstMoves a n).filter p).length := by
  induction c with
  | zero => exact ⟨0, Nat.zero_le _⟩
  | succ c ih =>
    obtain ⟨n, hn⟩ := ih
    obtain ⟨m, hm, hp⟩ := h n
    refine ⟨m + 1, ?_⟩
    have hp : p (a m) = true := hp
    obtain ⟨d, rfl⟩ := Nat.exists_eq_add_of_le hm
    have e : firstMoves a (n + d) = firstMoves a n ++ ((List.range d).map fun j => a (n + j)) := by
      simp only [firstMoves]
      rw [List.range_add, List.map_append, List.map_map]
      rfl
    rw [firstMoves_succ, e, List.filter_append, List.filter_append]
    simp only [List.length_append, List.filter_cons, hp, if_true, List.length_cons]
    omega

/-- A client's task that is over stays over. -/
theorem finished_stays {m m' : RemoteRun} {b : RemoteAct} (h : m.step b = some m') (hf : m.cli = .finished) : m'.cli = .finished := by
  cases b <;> simp only [RemoteRun.step, hf] at h <;> (repeat' split at h) <;> first
    | contradiction
    | (cases h; first | rfl | exact hf)
    | (rename_i hc; exact absurd hc.1 (by simp))

/-- One that has stopped listening either goes on to its end or waits. -/
theorem checking_stays {m m' : RemoteRun} {b : RemoteAct} (h : m.step b = some m') (hf : m.cli = .checking) :
    if b = .check then m'.cli = .finished else m'.cli = .checking := by
  cases b <;> simp only [RemoteRun.step, hf] at h <;> (repeat' split at h) <;> first
    | contradiction
    | (cases h; first | rfl | exact hf)
    | (rename_i hc; exact absurd hc.1 (by simp))

theorem taskMoved_cli {n : RemoteRun} (b : TaskAct) (sg : SigState) : (n.taskMoved b sg).cli = n.cli := (taskMoved_work b sg).2.1


/-- A move in a call is one of its network. -/
theorem call_net {E E' : RemoteEngine} {r i n : Nat} {b : RemoteAct} (hs : E.step (.net r i n b) = some E') {x : RemoteExec}
    (hx : callAt E r i n = some x) : ∃ x', callAt E' r i n = some x' ∧ x.net.step b = some x'.net := by
  obtain ⟨lab, h1, h2⟩ := (remote_move hs).2 r i
  have hl := h1 n
  rw [callMoves_self] at hl
  have hv := callAt_view hx
  generalize hvs : (E.calls r i).map callView = vs at h2 hv
  generalize hvs' : (E'.calls r i).map callView = vs' at h2
  generalize taskAt E.sys r i = ot at h2
  generalize taskAt E'.sys r i = ot' at h2
  have own : ∀ (k : Nat) (b' : RemoteAct) (c : Command) (m m' : RemoteRun), lab = some (k, b') → vs[k]? = some (some (c, m)) →
      m.step b' = some m' → vs' = vs.set k (some (c, m')) → ∃ x', callAt E' r i n = some x' ∧ x.net.step b = some x'.net := by
    intro k b' c m m' hl' hget hst hset
    subst hl'
    have hk : k = n ∧ b' = b := by
      simp only [labMoves] at hl
      split at hl
      · rename_i e; simp only [List.cons.injEq, and_true] at hl; exact ⟨e, hl.symm⟩
      · cases hl
    obtain ⟨rfl, rfl⟩ := hk
    rw [hv] at hget
    simp only [Option.some.injEq, Prod.mk.injEq] at hget
    obtain ⟨rfl, rfl⟩ := hget
    obtain ⟨x', k1, k2, k3⟩ := view_callAt (E := E') (r := r) (i := i) (n := k) (y := (x.command, m')) (by
      rw [hvs', hset]; simp [(List.getElem?_eq_some_iff.1 hv).1])
    simp only at k3
    exact ⟨x', k1, by rw [k3]; exact hst⟩
  cases h2 with
  | other o _ k b c m m' hget ha hst ho => exact own k b c m m' rfl hget hst rfl
  | wrote t _ k b c m m' hget ha hst hr hn => exact own k b c m m' rfl hget hst rfl
  | _ => cases hl

theorem finished_call {f : Nat → RemoteEngine} {a : Nat → RemoteEngineAct} (hE : RemoteEndless f a) {r i n k : Nat} {x : RemoteExec}
    (hx : callAt (f k) r i n = some x) (hf : x.net.cli = .finished) (d : Nat) : ∃ y, callAt (f (k + d)) r i n = some y ∧ y.net.cli = .finished := by
  induction d with
  | zero => exact ⟨x, hx, hf⟩
  | succ d ih =>
    obtain ⟨y, h1, h2⟩ := ih
    obtain ⟨z, h3, h4⟩ := call_follows (hE.moves (k + d)) h1
    refine ⟨z, h3, ?_⟩
    rcases h4 with h4 | ⟨b, sg, h4⟩ | ⟨b, _, h4⟩
    · rw [h4]; exact h2
    · rw [h4, taskMoved_cli]; exact h2
    · exact finished_stays h4 h2

/-- A client's task that does not listen any more comes to its end. -/
theorem comes_to_finish {f : Nat → RemoteEngine} {a : Nat → RemoteEngineAct} (hE : RemoteEndless f a) {r i n k : Nat} {x : RemoteExec}
    (hx : callAt (f k) r i n = some x) (hf : x.net.cli = .checking) (hcall : WeaklyFair RemoteEngine.step f a (clientOf r i n)) :
    ∃ m y, k ≤ m ∧ callAt (f m) r i n = some y ∧ y.net.cli = .finished := by
  apply Classical.byContradiction
  intro hno
  have hstay : ∀ d, ∃ y, callAt (f (k + d)) r i n = some y ∧ y.net.cli = .checking := by
    intro d
    induction d with
    | zero => exact ⟨x, hx, hf⟩
    | succ d ih =>
      obtain ⟨y, h1, h2⟩ := ih
      obtain ⟨z, h3, h4⟩ := call_follows (hE.moves (k + d)) h1
      refine ⟨z, h3, ?_⟩
      rcases h4 with h4 | ⟨b, sg, h4⟩ | ⟨b, _, h4⟩
      · rw [h4]; exact h2
      · rw [h4, taskMoved_cli]; exact h2
      · have := checking_stays h4 h2
        split at this
        · exact absurd ⟨k + d + 1, z, by omega, h3, this⟩ hno
        · exact this
  have hposs : ∀ m, k ≤ m → Possible RemoteEngine.step f (clientOf r i n) m := by
    intro m hm
    obtain ⟨d, rfl⟩ := Nat.exists_eq_add_of_le hm
    obtain ⟨y, h1, h2⟩ := hstay d
    refine ⟨.net r i n .check, ⟨_, rfl, .inr (.inr (.inr rfl))⟩, net_possible h1 rfl ?_⟩
    simp only [RemoteRun.step, h2, if_true]
    split <;> simp
  obtain ⟨m, hm, b, hb, hb'⟩ := hcall ⟨k, hposs⟩ k
  obtain ⟨d, rfl⟩ := Nat.exists_eq_add_of_le hm
  obtain ⟨y, h1, h2⟩ := hstay d
  obtain ⟨z, h3, h4⟩ := hstay (d + 1)
  have hmv := hE.moves (k + d)
  rw [hb] at hmv
  obtain ⟨y', m', hget, hbs, hst, hcs⟩ := renet_step hmv
  rw [callAt_iff.1 h1] at hget
  cases hget
  obtain ⟨z', g1, g2⟩ := call_net hmv h1
  rw [show k + (d + 1) = k + d + 1 from rfl, g1] at h3
  cases h3
  rcases hb' with rfl | rfl | rfl | rfl
  · simp [RemoteRun.step, h2] at g2
  · simp [RemoteRun.step, h2] at g2
  · simp [RemoteRun.step, h2] at g2
  · have := checking_stays g2 h2
    simp [h4] at this

/-- A call for which there was no runner stays one. -/
theorem none_stays {E E' : RemoteEngine} {a : RemoteEngineAct} (hs : E.step a = some E') {r i L : Nat} (hn : (E.calls r i)[L]? = some none) :
    (E'.calls r i)[L]? = some none := by
  obtain ⟨lab, _, hp⟩ := (remote_move hs).2 r i
  have hv : ((E.calls r i).map callView)[L]? = some none := by simp [hn, callView]
  have hlt := (List.getElem?_eq_some_iff.1 hv).1
  have main : ((E'.calls r i).map callView)[L]? = some none := by
    generalize (E.calls r i).map callView = vs at hp hv hlt
    generalize (E'.calls r i).map callView = vs' at hp
    generalize taskAt E.sys r i = ot at hp
    generalize taskAt E'.sys r i = ot' at hp
    cases hp with
    | same => exact hv
    | born => exact hv
    | eng =>
      split
      · rw [List.getElem?_modify, hv]
        simp only [Option.map_eq_map, Option.map_some, Option.some.injEq]
        split <;> rfl
      · exact hv
    | dispatched => rw [List.getElem?_append_left hlt]; exact hv
    | refused => rw [List.getElem?_append_left hlt]; exact hv
    | other _ _ q b c m m' hget =>
      have : q ≠ L := by rintro rfl; rw [hv] at hget; cases hget
      rw [List.getElem?_set_ne this]; exact hv
    | wrote _ _ q b c m m' hget =>
      have : q ≠ L := by rintro rfl; rw [hv] at hget; cases hget
      rw [List.getElem?_set_ne this]; exact hv
  rw [List.getElem?_map] at main
  cases hq : (E'.calls r i)[L]? with
  | none => rw [hq] at main; cases main
  | some q =>
    rw [hq] at main
    cases q with
    | none => rfl
    | some x => cases main

/-- Nothing is written to the engine for a call that is over for the client. -/
theorem over_no_write {E E' : RemoteEngine} {a : RemoteEngineAct} (hs : E.step a = some E') {x0 x1 x2 y : SysAct} (hsh : Shadow3 E a x0 x1 x2)
    {r i L : Nat} {t : SysTask} (ht : taskAt E.sys r i = some t) (hr : t.pc.reading = true) (hl : L + 1 = (E.calls r i).length)
    (ho : (E.calls r i)[L]? = some none ∨ ∃ x, callAt E r i L = some x ∧ x.net.cli = .finished) (hy : y = x0 ∨ y = x1 ∨ y = x2) :
    ¬ IsWrite r i y := by
  intro hw
  have hsame : ∀ r' i', IsWrite r' i' y → r' = r ∧ i' = i := by
    rintro r' i' (⟨l, rfl⟩ | ⟨z, rfl⟩) <;> rcases hw with ⟨l', hw⟩ | ⟨z', hw⟩ <;> cases hw <;> exact ⟨rfl, rfl⟩
  have hnt : ∀ q, y ≠ .tick q := by
    rintro q rfl
    rcases hw with ⟨l', hw⟩ | ⟨z', hw⟩ <;> cases hw
  have hnb : y.byRunner = true := by rcases hw with ⟨l', rfl⟩ | ⟨z', rfl⟩ <;> rfl
  have hna : ∀ r' i', y ≠ .task r' i' .accept := by
    rintro r' i' rfl
    rcases hw with ⟨l', hw⟩ | ⟨z', hw⟩ <;> cases hw
  have fin : ∀ n' x, n' + 1 = (E.calls r i).length → (E.calls r i)[n']? = some (some x) → x.net.cli ≠ .finished → False := by
    intro n' x e1 e2 e3
    have : n' = L := by omega
    subst this
    rcases ho with h | ⟨z, h1, h2⟩
    · rw [e2] at h; cases h
    · rw [callAt_iff.1 h1] at e2
      cases e2
      exact e3 h2
  cases a with
  | sys b =>
    obtain ⟨e1, e2, e3, e4⟩ := hsh
    rcases hy with rfl | rfl | rfl
    · rw [e1, e2] at hnb; cases hnb
    · exact absurd e3 (hnt 0)
    · exact absurd e4 (hnt 0)
  | dispatched r' i' sv =>
    obtain ⟨e1, e2, e3⟩ := hsh
    rcases hy with rfl | rfl | rfl
    · exact absurd e1 (hna _ _)
    · exact absurd e2 (hnt 0)
    · exact absurd e3 (hnt 0)
  | noRunner r' i' =>
    obtain ⟨e1, e2, e3, v, st, t0, ref, e4, e5⟩ := hsh
    have : r' = r ∧ i' = i := by
      rcases hy with rfl | rfl | rfl
      · exact hsame _ _ e1
      · exact hsame _ _ e2
      · exact absurd e3 (hna _ _)
    obtain ⟨rfl, rfl⟩ := this
    rw [ht] at e4
    cases e4
    rw [e5] at hr
    cases hr
  | net r' i' n' b =>
    rcases hsh y hy with e | ⟨e1, e2, e3, e4⟩
    · exact absurd e (hnt 0)
    · obtain ⟨rfl, rfl⟩ := hsame _ _ e1
      obtain ⟨x, m, hx, _⟩ := renet_step hs
      exact fin n' x e3 hx (e4 x (callAt_iff.2 hx))
  | signalFailed r' i' n' b =>
    rcases hsh y hy with e | ⟨e1, e3, e4⟩
    · exact absurd e (hnt 0)
    · obtain ⟨rfl, rfl⟩ := hsame _ _ e1
      obtain ⟨x, m, v, hx, _⟩ := refail_step hs
      exact fin n' x e3 hx (e4 x (callAt_iff.2 hx))
  | stepCompleted r' sv res =>
    obtain ⟨e1, e2, e3⟩ := hsh
    rcases hy with rfl | rfl | rfl
    · exact absurd e1 (hnt 0)
    · exact absurd e2 (hnt 0)
    · exact absurd e3 (hnt 0)

/-- A stream that has ended stays so while it is read. -/
theorem ended_stays {f : Nat → Sys} {x : Nat → SysAct} (hE : Endless f x) {r i K : Nat}
    (hread : ∀ k, K ≤ k → ∃ t, taskAt (f k) r i = some t ∧ t.pc.reading = true)
    (hK : ∀ t, taskAt (f K) r i = some t → t.stream.result ≠ none) :
    ∀ k, K ≤ k → ∃ t, taskAt (f k) r i = some t ∧ t.pc.reading = true ∧ t.stream.result ≠ none := by
  intro k hk
  obtain ⟨d, rfl⟩ := Nat.exists_eq_add_of_le hk
  clear hk
  induction d with
  | zero =>
    obtain ⟨t, h1, h2⟩ := hread K (Nat.le_refl _)
    exact ⟨t, h1, h2, hK t h1⟩
  | succ d ih =>
    obtain ⟨t, h1, h2, h3⟩ := ih
    obtain ⟨t', h1', h2'⟩ := hread (K + d + 1) (by omega)
    refine ⟨t', h1', h2', ?_⟩
    rcases task_between (hE.moves (K + d)) h1 with ⟨h, _⟩ | ⟨b, hb⟩
    · rw [h1'] at h; cases h; exact h3
    · have hs := hE.moves (K + d)
      rw [hb] at hs
      obtain ⟨ρ, u, u', hρ, e1, e2, _, g, ρ', e3, e4⟩ := task_act hs
      rw [h1] at e1; cases e1
      rw [h1'] at e2; cases e2
      obtain ⟨ρ2, q1, q2⟩ := taskAt_some h1
      rw [hρ] at q1; cases q1
      have hlen := (List.getElem?_eq_some_iff.1 q2).1
      exact (cycle_move (taskOk_reach (endless_reach hE _) hρ (List.mem_of_getElem? q2)) hlen e3 e4
        (reading_cycle h2) (reading_cycle h2')).1 h3

/-- Moves of runners do not keep a step from being read. -/
theorem runner_reading {M M' : Sys} {y : SysAct} (hs : M.step y = some M')
    (hy : y = .tick 0 ∨ ∃ r' i', IsWrite r' i' y ∨ y = .task r' i' .accept) {r i : Nat} {t : SysTask}
    (ht : taskAt M r i = some t) (hr : t.pc.reading = true) : ∃ t', taskAt M' r i = some t' ∧ t'.pc.reading = true := by
  rcases task_between hs ht with ⟨h, _⟩ | ⟨b, rfl⟩
  · exact ⟨t, h, hr⟩
  · have hb : (∃ l, b = .push l) ∨ (∃ z, b = .endStream z) ∨ b = .accept := by
      rcases hy with h | ⟨r', i', (⟨l, h⟩ | ⟨z, h⟩) | h⟩ <;> cases h
      · exact .inl ⟨l, rfl⟩
      · exact .inr (.inl ⟨z, rfl⟩)
      · exact .inr (.inr rfl)
    obtain ⟨ρ, t1, t2, hρ, e1, e2, _, g, ρ', e3, e4⟩ := task_act hs
    rw [ht] at e1; cases e1
    obtain ⟨ρ2, q1, q2⟩ := taskAt_some ht
    rw [hρ] at q1; cases q1
    have hlen := (List.getElem?_eq_some_iff.1 q2).1
    refine ⟨t2, e2, ?_⟩
    rcases hb with ⟨l, rfl⟩ | ⟨z, rfl⟩ | rfl
    · simp only [Sys.taskStep, Option.map_eq_some_iff, Prod.mk.injEq] at e3
      obtain ⟨u, h1, _, rfl⟩ := e3
      simp only [SysTask.step] at h1
      split at h1
      · cases h1
        simp [SysRun.setTask, hlen] at e4
        subst e4
        exact hr
      · cases h1
    · simp only [Sys.taskStep, Option.map_eq_some_iff, Prod.mk.injEq] at e3
      obtain ⟨u, h1, _, rfl⟩ := e3
      simp only [SysTask.step] at h1
      split at h1
      · cases h1
        simp [SysRun.setTask, hlen] at e4
        subst e4
        exact hr
      · cases h1
    · exfalso
      simp only [Sys.taskStep, Option.map_eq_some_iff, Prod.mk.injEq] at e3
      obtain ⟨u, h1, _, rfl⟩ := e3
      simp only [SysTask.step] at h1
      split at h1
      · rename_i hpc
        rw [hpc] at hr; cases hr
      · cases h1

/-- A step that is read before and after a move is read in between. -/
theorem read_between {f : Nat → RemoteEngine} {a : Nat → RemoteEngineAct} {x0 x1 x2 : Nat → SysAct} {s1 s2 : Nat → Sys} {r i N : Nat}
    (hx : ∀ n, Thrice (f n).sys (x0 n) (x1 n) (x2 n) (s1 n) (s2 n) (f (n + 1)).sys)
    (hxs : ∀ n, Shadow3 (f n) (a n) (x0 n) (x1 n) (x2 n))
    (hnow : ∀ n, N ≤ n → ∃ t, taskAt (f n).sys r i = some t ∧ t.pc.reading = true) :
    ∀ q, 3 * N ≤ q → ∃ t, taskAt (every (fun n => (f n).sys) s1 s2 q) r i = some t ∧ t.pc.reading = true := by
  intro q hq
  have two : ∀ n, N ≤ n → (∃ t, taskAt (s1 n) r i = some t ∧ t.pc.reading = true) ∧ ∃ t, taskAt (s2 n) r i = some t ∧ t.pc.reading = true := by
    intro n hn
    by_cases hb : ∃ c, a n = .sys c
    · obtain ⟨c, hc⟩ := hb
      have hsh := hxs n
      rw [hc] at hsh
      have k1 := (hx n).2.1
      have k2 := (hx n).2.2
      rw [hsh.2.2.1, FairLocalLem.tick_zero] at k1
      rw [hsh.2.2.2, FairLocalLem.tick_zero] at k2
      have e2 := Option.some.inj k2
      have e1 := Option.some.inj k1
      rw [e1, e2]
      exact ⟨hnow (n + 1) (by omega), hnow (n + 1) (by omega)⟩
    · obtain ⟨t, h1, h2⟩ := hnow n hn
      obtain ⟨t1, h3, h4⟩ := runner_reading (hx n).1 (shadow_quiet (hxs n) _ (.inr (.inr ⟨fun c e => hb ⟨c, e⟩, rfl⟩))) h1 h2
      obtain ⟨t2, h5, h6⟩ := runner_reading (hx n).2.1 (shadow_quiet (hxs n) _ (.inl rfl)) h3 h4
      exact ⟨⟨t1, h3, h4⟩, ⟨t2, h5, h6⟩⟩
  obtain ⟨n, rfl | rfl | rfl⟩ := three_cases q
  · rw [every_0]; exact hnow n (by omega)
  · rw [every_1]; exact (two n (by omega)).1
  · rw [every_2]; exact (two n (by omega)).2

section
variable {f : Nat → RemoteEngine} {a : Nat → RemoteEngineAct} {r i L N : Nat}

/-- A stream that has ended is noticed. -/
theorem ended_noticed (hE : RemoteEndless f a) (hap : ∀ n, Apart (remoteEngineMoves (firstMoves a n)))
    (hk : ∀ n, RemoteEngineHooksKeepJobs (firstMoves a n)) (hjob : WeaklyFair RemoteEngine.step f a (remoteJobOf r i))
    (hrecv : StronglyFair RemoteEngine.step f a (remoteRecvOf r i))
    (hnow : ∀ n, N ≤ n → ∃ t, taskAt (f n).sys r i = some t ∧ t.pc.reading = true ∧ L + 1 = ((f n).calls r i).length) :
    ∀ K, N ≤ K → (∀ n, K ≤ n → ((f n).calls r i)[L]? = some none ∨ ∃ x, callAt (f n) r i L = some x ∧ x.net.cli = .finished) → False := by
  obtain ⟨x0, x1, x2, s1, s2, hx, hxs, hE', hap', hk'⟩ := shadow_three hE hap hk
  have hwork : WeaklyFair Sys.step _ _ (workOf r i) := work_fair3 (s1 := s1) (s2 := s2) hjob hxs
  have hrecv' : StronglyFair Sys.step _ _ (recvOf r i) := branch_fair3 rfl (fun _ _ _ h1 h2 h3 => recv_stays h1 h2 h3) hrecv hx hxs
  have hread := read_between (s1 := s1) (s2 := s2) (r := r) (i := i) (N := N) hx hxs fun n hn => by
    obtain ⟨t, h1, h2, _⟩ := hnow n hn
    exact ⟨t, h1, h2⟩
  have F0 : ∀ n, every (fun n => (f n).sys) s1 s2 (3 * n) = (f n).sys := every_0 _ _ _
  have X0 : ∀ n, every x0 x1 x2 (3 * n) = x0 n := every_0 _ _ _
  have X1 : ∀ n, every x0 x1 x2 (3 * n + 1) = x1 n := every_1 _ _ _
  have X2 : ∀ n, every x0 x1 x2 (3 * n + 2) = x2 n := every_2 _ _ _
  have hL : ∀ n, N ≤ n → L + 1 = ((f n).calls r i).length := fun n hn => by obtain ⟨t, _, _, h⟩ := hnow n hn; exact h
  generalize every (fun n => (f n).sys) s1 s2 = F at *
  generalize every x0 x1 x2 = X at *
  intro K hK hall
  have hKr : ∀ q, 3 * K ≤ q → ∃ t, taskAt (F q) r i = some t ∧ t.pc.reading = true := fun q hq => hread q (by omega)
  refine notices_the_end hE' (K := 3 * K) hwork hrecv' (ended_stays hE' hKr ?_) ?_
  · intro t ht
    rw [F0] at ht
    obtain ⟨t', h1, h2, _⟩ := hnow K hK
    rw [ht] at h1; cases h1
    have hp := rpair (endless_remote hE K) ht
    obtain ⟨st, D, o, H, a1, a2, a3, _⟩ := hp.link h2
    have hLD : L = D.length := by
      have := congrArg List.length a2
      have hl := hL K hK
      simp only [List.length_map, List.length_append, List.length_singleton] at this
      omega
    have hg : (((f K).calls r i).map callView)[L]? = some o := by rw [a2, hLD]; simp
    rcases hall K (Nat.le_refl _) with hnone | ⟨x, hx1, hx2⟩
    · rw [List.getElem?_map, hnone] at hg
      cases hg
      rw [a3.2]; simp
    · rw [callAt_view hx1] at hg
      cases hg
      obtain ⟨na, q1, _⟩ := callAt_reach (endless_remote hE K) hx1
      have hcc := (AstroRun.remote_reach q1).cli
      simp only [CliOk, hx2] at hcc
      have := a3.2.2.1
      rw [← this, hcc.1]; simp
  · intro q l hq he
    obtain ⟨n, hn, hy⟩ : ∃ n, K ≤ n ∧ (X q = x0 n ∨ X q = x1 n ∨ X q = x2 n) := by
      obtain ⟨n, rfl | rfl | rfl⟩ := three_cases q
      · exact ⟨n, by omega, .inl (X0 n)⟩
      · exact ⟨n, by omega, .inr (.inl (X1 n))⟩
      · exact ⟨n, by omega, .inr (.inr (X2 n))⟩
    obtain ⟨t, h1, h2, _⟩ := hnow n (by omega)
    exact over_no_write (hE.moves n) (hxs n) h1 h2 (hL n (by omega)) (hall n hn) hy (.inl ⟨l, he⟩)

/-- A signal that a step has is passed on to the server, if its stream is read forever. -/
theorem told_at_last (hE : RemoteEndless f a) (hap : ∀ n, Apart (remoteEngineMoves (firstMoves a n)))
    (hk : ∀ n, RemoteEngineHooksKeepJobs (firstMoves a n)) (hjob : WeaklyFair RemoteEngine.step f a (remoteJobOf r i))
    (hrecv : StronglyFair RemoteEngine.step f a (remoteRecvOf r i)) (hclient : ∀ n, WeaklyFair RemoteEngine.step f a (clientOf r i n))
    (hnow : ∀ n, N ≤ n → ∃ t s, taskAt (f n).sys r i = some t ∧ t.pc.reading = true ∧ t.sig.signal ≠ none ∧ stepOf t.pc = some s ∧
      L + 1 = ((f n).calls r i).length ∧ OnlyCallFor (f n) r i L s.id) :
    ∃ n x v, N ≤ n ∧ callAt (f n) r i L = some x ∧ x.remote.signal = some v := by
  apply Classical.byContradiction
  intro hnever
  have hL : ∀ n, N ≤ n → L + 1 = ((f n).calls r i).length := fun n hn => by obtain ⟨t, _, _, _, _, _, h, _⟩ := hnow n hn; exact h
  have hover := ended_noticed (N := N) (L := L) hE hap hk hjob hrecv fun n hn => by
    obtain ⟨t, _, h1, h2, _, _, h3, _⟩ := hnow n hn
    exact ⟨t, h1, h2, h3⟩
  have hfin : ∀ m x, N ≤ m → callAt (f m) r i L = some x → x.net.cli = .finished → False := by
    intro m x hm hx1 hx2
    refine hover m hm fun n hn => .inr ?_
    obtain ⟨d, rfl⟩ := Nat.exists_eq_add_of_le hn
    exact finished_call hE hx1 hx2 d
  have hcheck : ∀ m x, N ≤ m → callAt (f m) r i L = some x → x.net.cli ≠ .checking := by
    intro m x hm hx1 hx2
    obtain ⟨m', y, h1, h2, h3⟩ := comes_to_finish hE hx1 hx2 (hclient L)
    exact hfin m' y (by omega) h2 h3
  -- there is a call
  obtain ⟨xN, hxN⟩ : ∃ x, callAt (f N) r i L = some x := by
    have hlt : L < ((f N).calls r i).length := by have := hL N (Nat.le_refl _); omega
    cases hq : ((f N).calls r i)[L]? with
    | none => simp at hq; omega
    | some q =>
      cases q with
      | some x => exact ⟨x, callAt_iff.2 hq⟩
      | none =>
        exfalso
        refine hover N (Nat.le_refl _) fun n hn => .inl ?_
        obtain ⟨d, rfl⟩ := Nat.exists_eq_add_of_le hn
        clear hn
        induction d with
        | zero => exact hq
        | succ d ih => exact none_stays (hE.moves (N + d)) ih
  have hcallAt : ∀ n, N ≤ n → ∃ x, callAt (f n) r i L = some x := by
    intro n hn
    obtain ⟨d, rfl⟩ := Nat.exists_eq_add_of_le hn
    obtain ⟨x', h1, _⟩ := srv_follows hE hxN d
    exact ⟨x', h1⟩
  -- the signal can always be carried on
  have hposs : ∀ n, N ≤ n → ∃ y, carriesOn r i L y = true ∧ ((f n).step y).isSome = true := by
    intro n hn
    obtain ⟨t, s, h1, h2, h3, h4, h5, h6⟩ := hnow n hn
    obtain ⟨x, hx1⟩ := hcallAt n hn
    obtain ⟨v, hv⟩ := Option.ne_none_iff_exists'.1 h3
    rcases C117_signal_carried_partial (firstMoves a n) (f n) (endless_remote hE n) r i L s ⟨t, h1, h2, h4, h5⟩ x hx1
      h6 t h1 v hv with h | h | h | h
    · exact absurd ⟨n, x, v, hn, hx1, h⟩ hnever
    · exact absurd h (hcheck n x hn hx1)
    · exact (hfin n x hn hx1 h).elim
    · exact h
  have hoften : Often fun n => carriesOn r i L (a n) = true := by
    have := hclient L ⟨N, fun n hn => by
      obtain ⟨y, h1, h2⟩ := hposs n hn
      refine ⟨y, ?_, Option.isSome_iff_ne_none.1 h2⟩
      unfold carriesOn at h1
      split at h1
      all_goals first
        | (simp only [Bool.and_eq_true, beq_iff_eq] at h1
           obtain ⟨⟨rfl, rfl⟩, rfl⟩ := h1
           exact ⟨_, rfl, by simp⟩)
        | cases h1⟩
    intro n
    obtain ⟨m, hm, b, hb, hb'⟩ := this (N + n)
    refine ⟨m, by omega, ?_⟩
    show carriesOn r i L (a m) = true
    rw [hb]
    rcases hb' with rfl | rfl | rfl | rfl
    · simp [carriesOn]
    · simp [carriesOn]
    · simp [carriesOn]
    · exfalso
      have hmv := hE.moves m
      rw [hb] at hmv
      obtain ⟨x, hx1⟩ := hcallAt m (by omega)
      obtain ⟨x', _, h2⟩ := call_net hmv hx1
      refine hcheck m x (by omega) hx1 ?_
      simp only [RemoteRun.step] at h2
      split at h2
      · assumption
      · cases h2
  obtain ⟨n, hn⟩ := often_many hoften 4
  have := C117_moves_bounded (firstMoves a n) (f n) (endless_remote hE n) r i L
  omega


end

end RemoteCancelLem

open FairLem FairLocalLem FairRemoteLem CancelFairLem SilentLem RemoteCancelLem

/-- **C126** (for workflows of any shape, if the job is not started twice) An engine on the remote runner, in any endless execution, whatever its users, its other workflows, the network and the servers do:
if a job is executing a step when `cancel_job` is first called for it, the engine's and the client's tasks concerned are not starved, their
`select!`s do not ignore the cancellation and the end of the stream forever, and no earlier step of the job had this step's id, then the
step comes to its end, or the runner on its server is told. -/
theorem C126_servers_told_or_steps_end_once (f : Nat → RemoteEngine) (a : Nat → RemoteEngineAct) (hE : RemoteEndless f a)
    (hap : ∀ n, Apart (remoteEngineMoves (firstMoves a n))) (hk : ∀ n, RemoteEngineHooksKeepJobs (firstMoves a n)) (r i n0 : Nat) (ρ0 : SysRun)
    (hr0 : (f n0).sys.runs[r]? = some ρ0) (ho : OwnIds ρ0.wf) (t0 : SysTask)
    (ht0 : taskAt (f n0).sys r i = some t0) (s : Step) (hs : stepOf t0.pc = some s)
    (honce : ∀ n ρ, n0 ≤ n → (f n).sys.runs[r]? = some ρ → StartedOnce ρ t0.key)
    (hcancel : a n0 = .sys (.cancel t0.job.id)) (hbefore : (t0.job.id, true) ∉ (f n0).sys.answers)
    (hids : ∀ sr ∈ t0.results, sr.id ≠ s.id)
    (hjob : WeaklyFair RemoteEngine.step f a (remoteJobOf r i)) (hrecv : StronglyFair RemoteEngine.step f a (remoteRecvOf r i))
    (hsig : StronglyFair RemoteEngine.step f a (remoteSignalOf r i)) (hclient : ∀ n, WeaklyFair RemoteEngine.step f a (clientOf r i n)) :
    ∃ n t, n0 < n ∧ taskAt (f n).sys r i = some t ∧ ((∃ sr, t.results = t0.results ++ [sr] ∧ sr.id = s.id) ∨
      t.results = t0.results ∧ ∃ L x v, BusyRemotely (f n) r i L s ∧ callAt (f n) r i L = some x ∧ x.remote.signal = some v) := by
  apply Classical.byContradiction
  intro hnever
  obtain ⟨x0, x1, x2, s1, s2, hx, hxs, hE', hap', hk'⟩ := shadow_three hE hap hk
  have hwork : WeaklyFair Sys.step _ _ (workOf r i) := work_fair3 (s1 := s1) (s2 := s2) hjob hxs
  have hrecv' : StronglyFair Sys.step _ _ (recvOf r i) := branch_fair3 rfl (fun _ _ _ h1 h2 h3 => recv_stays h1 h2 h3) hrecv hx hxs
  have hsig' : StronglyFair Sys.step _ _ fun y => y = .task r i .jobSignal :=
    branch_fair3 rfl (fun _ _ _ h1 h2 h3 => signal_possible_stays h1 h2 h3) hsig hx hxs
  have F0 : ∀ n, every (fun n => (f n).sys) s1 s2 (3 * n) = (f n).sys := every_0 _ _ _
  have F1 : ∀ n, every (fun n => (f n).sys) s1 s2 (3 * n + 1) = s1 n := every_1 _ _ _
  have F2 : ∀ n, every (fun n => (f n).sys) s1 s2 (3 * n + 2) = s2 n := every_2 _ _ _
  have X0 : ∀ n, every x0 x1 x2 (3 * n) = x0 n := every_0 _ _ _
  have X1 : ∀ n, every x0 x1 x2 (3 * n + 1) = x1 n := every_1 _ _ _
  have X2 : ∀ n, every x0 x1 x2 (3 * n + 2) = x2 n := every_2 _ _ _
  generalize every (fun n => (f n).sys) s1 s2 = F at *
  generalize every x0 x1 x2 = X at *
  have hxk := hE'.moves
  have ht0' : taskAt (F (3 * n0)) r i = some t0 := by rw [F0]; exact ht0
  -- it stays in the step
  have hin : ∀ k, 3 * n0 ≤ k → ∃ t, taskAt (F k) r i = some t ∧ stepOf t.pc = some s ∧ t.results = t0.results := by
    intro k hk
    induction k with
    | zero =>
      have : n0 = 0 := by omega
      subst this
      exact ⟨t0, ht0', hs, rfl⟩
    | succ k ih =>
      rcases Nat.lt_or_ge k (3 * n0) with h | h
      · have e : 3 * n0 = k + 1 := by omega
        rw [e] at ht0'; exact ⟨t0, ht0', hs, rfl⟩
      · obtain ⟨u, h1, h2, h3⟩ := ih h
        rcases task_between (hxk k) h1 with ⟨h4, _⟩ | ⟨b, hb⟩
        · exact ⟨u, h4, h2, h3⟩
        · have hst := hxk k
          rw [hb] at hst
          obtain ⟨ρ, t1, t2, hρ, e1, e2, _, g, ρ', e3, e4⟩ := task_act hst
          rw [h1] at e1; cases e1
          obtain ⟨ρ2, q1, q2⟩ := taskAt_some h1
          rw [hρ] at q1; cases q1
          rcases step_left q2 e3 e4 h2 with ⟨h5, h6⟩ | ⟨sr, h5, h6⟩
          · exact ⟨t2, e2, h5, h6.trans h3⟩
          · exfalso
            have hquiet : (X k = .tick 0 ∨ ∃ r' i', IsWrite r' i' (X k) ∨ X k = .task r' i' .accept) → False := by
              intro hq
              obtain ⟨t', g1, g2⟩ := runner_results (hxk k) hq h1
              rw [e2] at g1; cases g1
              rw [h5] at g2
              have := congrArg List.length g2
              simp at this
            obtain ⟨n, rfl | rfl | rfl⟩ := three_cases k
            · by_cases hb' : ∃ c, a n = .sys c
              · obtain ⟨c, hc'⟩ := hb'
                have hsh := hxs n
                rw [hc'] at hsh
                have hlast : taskAt (F (3 * n + 1)) r i = taskAt (f (n + 1)).sys r i := by
                  have k1 := (hx n).2.1
                  have k2 := (hx n).2.2
                  rw [hsh.2.2.1, FairLocalLem.tick_zero] at k1
                  rw [hsh.2.2.2, FairLocalLem.tick_zero] at k2
                  rw [F1, Option.some.inj k1, Option.some.inj k2]
                exact hnever ⟨n + 1, t2, by omega, by rw [← hlast]; exact e2, .inl ⟨sr, by rw [h5, h3], h6⟩⟩
              · refine hquiet ?_
                rw [X0]
                exact shadow_quiet (hxs n) _ (.inr (.inr ⟨fun c e => hb' ⟨c, e⟩, rfl⟩))
            · refine hquiet ?_
              rw [X1]
              exact shadow_quiet (hxs n) _ (.inl rfl)
            · refine hquiet ?_
              rw [X2]
              exact shadow_quiet (hxs n) _ (.inr (.inl rfl))
  have hactive : ∀ k, 3 * n0 ≤ k → ∃ t, taskAt (F k) r i = some t ∧ t.pc.runnerActive = true := by
    intro k hk
    obtain ⟨u, h1, h2, _⟩ := hin k hk
    exact ⟨u, h1, active_of h2⟩
  obtain ⟨K1, hK1, hread⟩ := comes_to_read hE' hwork hactive
  -- the cancellation is passed on
  have hno : ∀ n, NoOther (F n) t0.job.id r i := by
    have later : ∀ n, n0 ≤ n → NoOther (F (3 * n)) t0.job.id r i := by
      intro n hn
      have hn3 : 3 * n0 ≤ 3 * n := by omega
      obtain ⟨t, h1, h2⟩ := job_stays hE' hn3 ht0'
      obtain ⟨ρ, h3, h4⟩ := taskAt_some h1
      obtain ⟨ρ', h5, h6⟩ := wf_stays hE' hap' hn3 (show (F (3 * n0)).runs[r]? = some ρ0 by rw [F0]; exact hr0)
      rw [h3] at h5; cases h5
      have := C104_only_run_once (firstMoves X (3 * n)) (F (3 * n)) (endless_reach hE' _) (hap' _) r ρ h3 (by rw [h6]; exact ho)
        i t h1 (by rw [job_key hE' hn3 ht0' h1]; exact honce n ρ hn (by rw [← F0]; exact h3))
      rwa [h2] at this
    intro n
    rcases Nat.le_total n0 n with h | h
    · exact noOther_back hE' (show n ≤ 3 * n by omega) (later n h)
    · exact noOther_back hE' (show n ≤ 3 * n0 by omega) (later n0 (Nat.le_refl _))
  have hbefore' : (t0.job.id, true) ∉ (F (3 * n0)).answers := by rw [F0]; exact hbefore
  have hafter : (t0.job.id, true) ∈ (F (3 * n0 + 1)).answers := by
    obtain ⟨M', ok, h1, h2, h3⟩ := C104_cancel_answered (firstMoves X (3 * n0)) (F (3 * n0)) (endless_reach hE' _) (hk' _) r i t0 ht0' (hno _)
    obtain ⟨h4, h5⟩ := announced_in_step (endless_reach hE' (3 * n0)) (hk' _) ht0' (hno _) hs
    have h6 := hxs n0
    rw [hcancel] at h6
    have h7 := hxk (3 * n0)
    rw [X0, h6.1] at h7
    rw [h1] at h7
    rw [← Option.some.inj h7, h2, h3.2 ⟨h4, h5, hbefore'⟩]
    simp
  obtain ⟨k, hkk, he⟩ := told (K := K1 + 1) hE' hk' ht0' hno hbefore' hafter (by omega) hwork hsig' fun k hk => hread k (by omega)
  have hst := hxk k
  rw [he] at hst
  obtain ⟨t1, t2, s', ts, d, ref, g1, g2, g3, g4, g5, g6⟩ := passes_on hst
  have hsg : ∀ k', k + 1 ≤ k' → ∃ t, taskAt (F k') r i = some t ∧ t.pc.reading = true ∧ t.sig.signal ≠ none := by
    intro k' hk'
    induction k' with
    | zero => omega
    | succ k' ih =>
      rcases Nat.lt_or_ge k' (k + 1) with h | h
      · have e : k' = k := by omega
        subst e
        exact ⟨t2, g2, by rw [g4]; rfl, g5⟩
      · obtain ⟨u, h1, h2, h3⟩ := ih h
        rcases task_between (hxk k') h1 with ⟨h4, _⟩ | ⟨b, hb⟩
        · exact ⟨u, h4, h2, h3⟩
        · have hst := hxk k'
          rw [hb] at hst
          obtain ⟨ρ, v1, v2, hρ, e1, e2, _, g, ρ', e3, e4⟩ := task_act hst
          rw [h1] at e1; cases e1
          obtain ⟨ρ2, q1, q2⟩ := taskAt_some h1
          rw [hρ] at q1; cases q1
          obtain ⟨v3, w1, w2⟩ := hactive (k' + 1) (by omega)
          rw [e2] at w1; cases w1
          have hrd := reading_stays q2 e3 e4 h2 w2
          exact ⟨v2, e2, hrd, signal_stays e3 e4 h3 hrd⟩
  -- back to the engine with its calls
  obtain ⟨N, hN⟩ : ∃ N, K1 + k + 1 + n0 ≤ N := ⟨_, Nat.le_refl _⟩
  have hnow : ∀ n, N ≤ n → ∃ t, taskAt (f n).sys r i = some t ∧ t.pc.reading = true ∧ t.sig.signal ≠ none ∧ stepOf t.pc = some s ∧
      t.results = t0.results := by
    intro n hn
    obtain ⟨t, h1, h2, h3⟩ := hsg (3 * n) (by omega)
    obtain ⟨t', h1', h4, h5⟩ := hin (3 * n) (by omega)
    rw [h1] at h1'; cases h1'
    rw [F0] at h1
    exact ⟨t, h1, h2, h3, h4, h5⟩
  obtain ⟨L, hL⟩ : ∃ L, ∀ n, N ≤ n → L + 1 = ((f n).calls r i).length := by
    have hsame : ∀ d, ((f (N + d)).calls r i).length = ((f N).calls r i).length := by
      intro d
      induction d with
      | zero => rfl
      | succ d ih =>
        obtain ⟨t, h1, h2, _, h4, _⟩ := hnow (N + d) (by omega)
        obtain ⟨t', h1', h2', _, h4', _⟩ := hnow (N + d + 1) (by omega)
        obtain ⟨lab, _, hp⟩ := (remote_move (hE.moves (N + d))).2 r i
        rw [h1, h1'] at hp
        have := (rmove_reading hp h2 (active_of h4')).2
        simp only [List.length_map] at this
        rw [show N + (d + 1) = N + d + 1 from rfl, this, ih]
    refine ⟨((f N).calls r i).length - 1, fun n hn => ?_⟩
    obtain ⟨d, rfl⟩ := Nat.exists_eq_add_of_le hn
    rw [hsame d]
    obtain ⟨t, h1, h2, _⟩ := hnow N (Nat.le_refl _)
    obtain ⟨st, D, o, H, a1, a2, _⟩ := (rpair (endless_remote hE N) h1).link h2
    have := congrArg List.length a2
    simp only [List.length_map, List.length_append, List.length_singleton] at this
    omega
  have hbusy : ∀ n, N ≤ n → BusyRemotely (f n) r i L s := by
    intro n hn
    obtain ⟨t, h1, h2, _, h4, _⟩ := hnow n hn
    exact ⟨t, h1, h2, h4, hL n hn⟩
  have honly : ∀ n, N ≤ n → OnlyCallFor (f n) r i L s.id := by
    intro n hn
    obtain ⟨t, h1, h2, _, h4, h5⟩ := hnow n hn
    have hj : t.job.id = t0.job.id := by
      obtain ⟨t', q1, q2⟩ := job_stays hE' (show 3 * n0 ≤ 3 * n by omega) ht0'
      rw [F0, h1] at q1; cases q1; rw [q2]
    have hsa := endless_reach hE' (3 * n)
    have hno' := hno (3 * n)
    rw [F0] at hsa hno'
    exact OnlyCallLem.only_call (endless_remote hE n) hsa (hk' _) h1 (by rw [hj]; exact hno') (hbusy n hn) (by rw [h5]; exact hids)
  obtain ⟨n, x, v, hn, h1, h2⟩ := told_at_last (N := N) (L := L) hE hap hk hjob hrecv hclient fun n hn => by
    obtain ⟨t, h1, h2, h3, h4, h5⟩ := hnow n hn
    exact ⟨t, s, h1, h2, h3, h4, hL n hn, honly n hn⟩
  obtain ⟨t, g1, g2, g3, g4, g5⟩ := hnow n hn
  exact hnever ⟨n, t, by omega, g1, .inr ⟨g5, L, x, v, hbusy n hn, h1, h2⟩⟩

/-- **C126** An engine on the remote runner, in any endless execution, whatever its users, its other workflows, the network and the servers do:
if a job is executing a step when `cancel_job` is first called for it, the engine's and the client's tasks concerned are not starved, their
`select!`s do not ignore the cancellation and the end of the stream forever, and no earlier step of the job had this step's id, then the
step comes to its end, or the runner on its server is told. -/
theorem C126_servers_told_or_steps_end (f : Nat → RemoteEngine) (a : Nat → RemoteEngineAct) (hE : RemoteEndless f a)
    (hap : ∀ n, Apart (remoteEngineMoves (firstMoves a n))) (hk : ∀ n, RemoteEngineHooksKeepJobs (firstMoves a n)) (r i n0 : Nat) (ρ0 : SysRun)
    (hr0 : (f n0).sys.runs[r]? = some ρ0) (hu : UniqueJobs ρ0.wf) (ho : OwnIds ρ0.wf) (hc : NoParallelDependents ρ0.wf) (t0 : SysTask)
    (ht0 : taskAt (f n0).sys r i = some t0) (s : Step) (hs : stepOf t0.pc = some s)
    (hcancel : a n0 = .sys (.cancel t0.job.id)) (hbefore : (t0.job.id, true) ∉ (f n0).sys.answers)
    (hids : ∀ sr ∈ t0.results, sr.id ≠ s.id)
    (hjob : WeaklyFair RemoteEngine.step f a (remoteJobOf r i)) (hrecv : StronglyFair RemoteEngine.step f a (remoteRecvOf r i))
    (hsig : StronglyFair RemoteEngine.step f a (remoteSignalOf r i)) (hclient : ∀ n, WeaklyFair RemoteEngine.step f a (clientOf r i n)) :
    ∃ n t, n0 < n ∧ taskAt (f n).sys r i = some t ∧ ((∃ sr, t.results = t0.results ++ [sr] ∧ sr.id = s.id) ∨
      t.results = t0.results ∧ ∃ L x v, BusyRemotely (f n) r i L s ∧ callAt (f n) r i L = some x ∧ x.remote.signal = some v) := by
  obtain ⟨x0, x1, x2, s1, s2, hx, hxs, hE', hap', hk'⟩ := shadow_three hE hap hk
  have F0 : ∀ n, every (fun n => (f n).sys) s1 s2 (3 * n) = (f n).sys := every_0 _ _ _
  refine C126_servers_told_or_steps_end_once f a hE hap hk r i n0 ρ0 hr0 ho t0 ht0 s hs (fun n ρ hn h => ?_) hcancel hbefore hids hjob hrecv hsig
    hclient
  obtain ⟨ρ', h5, h6⟩ := wf_stays hE' hap' (show 3 * n0 ≤ 3 * n by omega)
    (show (every (fun n => (f n).sys) s1 s2 (3 * n0)).runs[r]? = some ρ0 by rw [F0]; exact hr0)
  rw [F0, h] at h5; cases h5
  exact C02_started_once_partial _ _ (endless_reach hE' (3 * n)) (hap' (3 * n)) r ρ (by rw [F0]; exact h) (h6 ▸ hu) (h6 ▸ hc) _

namespace RemoteCancelLem
open FairSched

/-- The kinds of moves: of main tasks, job tasks, the branches of their `select!`s, calls, clients, and runners that write. -/
def rloudOf (c r i n : Nat) : RemoteEngineAct → Prop :=
  match c with
  | 0 => remoteMainOf r
  | 1 => remoteJobOf r i
  | 2 => remoteRecvOf r i
  | 3 => remoteSignalOf r i
  | 4 => callOf r i n
  | 5 => clientOf r i n
  | 6 => serverWritesOf r i n
  | _ => fun _ => False

/-- The kinds, numbered. -/
def rloudKind (k : Nat) : RemoteEngineAct → Prop :=
  rloudOf (Nat.unpair k).1 (Nat.unpair (Nat.unpair k).2).1 (Nat.unpair (Nat.unpair (Nat.unpair k).2).2).1
    (Nat.unpair (Nat.unpair (Nat.unpair k).2).2).2

theorem rloudKind_no (c r i n : Nat) : rloudKind (kindNo c r i n) = rloudOf c r i n := by
  simp only [rloudKind, kindNo, Nat.unpair_pair]

theorem rloudOf_moves {acts : List RemoteEngineAct} {E : RemoteEngine} {c r i n : Nat} (h : RemoteFine acts E)
    (hd : ∃ y, rloudOf c r i n y ∧ E.step y ≠ none) :
    ∃ y E', rloudOf c r i n y ∧ E.step y = some E' ∧ RemoteFine (acts ++ [y]) E' ∧ serversNeverEnd y = true := by
  obtain ⟨y, hy, hs⟩ := hd
  obtain ⟨E', hE'⟩ := Option.ne_none_iff_exists'.1 hs
  have plain : (∀ x, y ≠ .sys x) → serversNeverEnd y = true →
      ∃ y E', rloudOf c r i n y ∧ E.step y = some E' ∧ RemoteFine (acts ++ [y]) E' ∧ serversNeverEnd y = true :=
    fun hx hg => ⟨y, E', hy, hE', h.snoc hE' (fun wf e => hx _ e) (fun r i b s e => absurd e (hx _)), hg⟩
  match c, hy with
  | 0, ⟨b', e⟩ =>
    subst e
    exact ⟨_, E', ⟨b', rfl⟩, hE', h.snoc hE' (by simp) (by simp), rfl⟩
  | 1, hy =>
    obtain ⟨y1, E1, h1, h2, h3, h4⟩ := rkind_moves (c := 1) (r := r) (i := i) (n := n) h ⟨⟨y, hy, hs⟩, by simp⟩
    have h1' : remoteJobOf r i y1 := h1
    refine ⟨y1, E1, h1, h2, h3, ?_⟩
    rcases h1' with ⟨z, rfl, hz⟩ | ⟨sv, rfl⟩ | rfl
    · obtain ⟨b, rfl, _⟩ := FairLem.workOf_iff.1 hz
      rfl
    · rfl
    · exact absurd h4 id
  | 2, e =>
    have e : y = _ := e
    subst e
    exact ⟨_, E', rfl, hE', h.snoc hE' (by simp) (by simp), rfl⟩
  | 3, e =>
    have e : y = _ := e
    subst e
    exact ⟨_, E', rfl, hE', h.snoc hE' (by simp) (by simp), rfl⟩
  | 4, ⟨b, e, hb⟩ =>
    subst e
    refine plain (by simp) ?_
    cases b <;> first | rfl | cases hb
  | 5, ⟨b, e, hb⟩ =>
    subst e
    refine plain (by simp) ?_
    rcases hb with rfl | rfl | rfl | rfl <;> rfl
  | 6, ⟨l, e⟩ => subst e; exact plain (by simp) rfl
  | (_ + 7), e => exact absurd e id

theorem rloud_idles {acts : List RemoteEngineAct} {E : RemoteEngine} (h : RemoteFine acts E) :
    ∃ y E', E.step y = some E' ∧ RemoteFine (acts ++ [y]) E' ∧ serversNeverEnd y = true := by
  have hs : E.step (.sys (.tick 1)) ≠ none := rsys_possible rfl (by simp [Sys.step])
  obtain ⟨E', hE'⟩ := Option.ne_none_iff_exists'.1 hs
  exact ⟨_, E', hE', h.snoc hE' (by simp) (by simp), rfl⟩

end RemoteCancelLem
open FairSched

/-- **C126** Such executions exist, whatever has happened before: every schedule can be continued to an endless execution that treats all
tasks, calls and clients fairly, in which nothing fails, no runner on a server ends its stream, and all of them write again and again. -/
theorem C126_fair_futures (acts : List RemoteEngineAct) (E : RemoteEngine) (h : RemoteEngineReach acts E)
    (ha : Apart (remoteEngineMoves acts)) (hk : RemoteEngineHooksKeepJobs acts) :
    ∃ f a, RemoteEndless f a ∧ firstMoves a acts.length = acts ∧ f acts.length = E ∧
      (∀ n, Apart (remoteEngineMoves (firstMoves a n))) ∧ (∀ n, RemoteEngineHooksKeepJobs (firstMoves a n)) ∧
      (∀ n, acts.length ≤ n → serversNeverEnd (a n) = true) ∧
      ∀ r i, WeaklyFair RemoteEngine.step f a (remoteMainOf r) ∧ WeaklyFair RemoteEngine.step f a (remoteJobOf r i) ∧
        StronglyFair RemoteEngine.step f a (remoteRecvOf r i) ∧ StronglyFair RemoteEngine.step f a (remoteSignalOf r i) ∧
        (∀ n, WeaklyFair RemoteEngine.step f a (callOf r i n)) ∧ (∀ n, WeaklyFair RemoteEngine.step f a (clientOf r i n)) ∧
        ∀ n, StronglyFair RemoteEngine.step f a (serverWritesOf r i n) := by
  obtain ⟨f, a, f0, hm, hfirst, hfE, hP, hfair⟩ := fair_future (step := RemoteEngine.step) (cls := rloudKind)
    (Q := fun _ y => serversNeverEnd y = true) (P := RemoteFine) (fun _ _ _ h hc => rloudOf_moves h hc) (fun _ _ h => rloud_idles h)
    (s00 := RemoteEngine.initial) h ⟨h, ha, hk⟩
  have hpre : ∀ n, Apart (remoteEngineMoves (firstMoves a n)) ∧ RemoteEngineHooksKeepJobs (firstMoves a n) := by
    intro n
    rcases Nat.le_total acts.length n with hn | hn
    · exact (hP n hn).1.2
    · have e : firstMoves a n ++ acts.drop n = acts := by
        have : firstMoves a n = acts.take n := by
          rw [← hfirst]
          simp only [firstMoves, ← List.map_take, List.take_range, Nat.min_eq_left hn]
        rw [this, List.take_append_drop]
      exact remoteFine_prefix (e.symm ▸ ha) (e.symm ▸ hk)
  have key : ∀ c r i n, StronglyFair RemoteEngine.step f a (rloudOf c r i n) := by
    intro c r i n
    have := hfair (kindNo c r i n)
    rwa [rloudKind_no] at this
  exact ⟨f, a, ⟨f0, hm⟩, hfirst, hfE, fun n => (hpre n).1, fun n => (hpre n).2, fun n hn => (hP n hn).2, fun r i =>
    ⟨weak_of_strong (key 0 r i 0), weak_of_strong (key 1 r i 0), key 2 r i 0, key 3 r i 0, fun n => weak_of_strong (key 4 r i n),
    fun n => weak_of_strong (key 5 r i n), fun n => key 6 r i n⟩⟩

set_option maxRecDepth 8000 in
/-- The second of two workflows is in its step, on a server, and nothing has been cancelled. -/
theorem RemoteCancelLem.remote_in_step : ∃ ρ0 t0 s, (RemoteEngineEx.after RemoteEngineEx.two).sys.runs[1]? = some ρ0 ∧
    ρ0.wf = SystemEx.single "w" ∧ taskAt (RemoteEngineEx.after RemoteEngineEx.two).sys 1 0 = some t0 ∧ stepOf t0.pc = some s ∧
    t0.job.id = ⟨"w", "a"⟩ ∧ (RemoteEngineEx.after RemoteEngineEx.two).sys.answers = [] ∧ t0.results = [] :=
  ⟨_, _, _, rfl, rfl, rfl, rfl, rfl, rfl, rfl⟩

/-- The hypotheses are met: a step whose server writes forever is cancelled. -/
example : ∃ f a n0 ρ0 t0 s, RemoteEndless f a ∧ (∀ n, Apart (remoteEngineMoves (firstMoves a n))) ∧
    (∀ n, RemoteEngineHooksKeepJobs (firstMoves a n)) ∧ (f n0).sys.runs[1]? = some ρ0 ∧ UniqueJobs ρ0.wf ∧ OwnIds ρ0.wf ∧
    NoParallelDependents ρ0.wf ∧ taskAt (f n0).sys 1 0 = some t0 ∧ stepOf t0.pc = some s ∧ a n0 = .sys (.cancel t0.job.id) ∧
    (t0.job.id, true) ∉ (f n0).sys.answers ∧ (∀ sr ∈ t0.results, sr.id ≠ s.id) ∧ WeaklyFair RemoteEngine.step f a (remoteJobOf 1 0) ∧
    StronglyFair RemoteEngine.step f a (remoteRecvOf 1 0) ∧ StronglyFair RemoteEngine.step f a (remoteSignalOf 1 0) ∧
    (∀ n, WeaklyFair RemoteEngine.step f a (clientOf 1 0 n)) ∧ ∀ n, n0 < n → serversNeverEnd (a n) = true := by
  obtain ⟨ρ0, t0, s, g1, g2, g3, g4, g5, g6, g7⟩ := RemoteCancelLem.remote_in_step
  have hreach : RemoteEngineReach RemoteEngineEx.two (RemoteEngineEx.after RemoteEngineEx.two) := rfl
  generalize RemoteEngineEx.after RemoteEngineEx.two = E0 at g1 g3 g6 hreach
  have hp : E0.step (.sys (.cancel ⟨"w", "a"⟩)) ≠ none := rsys_possible rfl (by simp [Sys.step])
  obtain ⟨E1, hstep⟩ := Option.ne_none_iff_exists'.1 hp
  have hfine : RemoteFine (RemoteEngineEx.two ++ [.sys (.cancel ⟨"w", "a"⟩)]) E1 :=
    RemoteFine.snoc ⟨hreach, RemoteEngineEx.apart_two, RemoteEngineEx.keeps_two⟩ hstep (by simp) (by simp)
  obtain ⟨f, a, h1, h2, h3, h4, h5, h6, h7⟩ := C126_fair_futures _ _ hfine.1 hfine.2.1 hfine.2.2
  obtain ⟨f0, f1, f2, f3, f4, f5, f6⟩ := h7 1 0
  rw [List.length_append, List.length_singleton] at h6
  rw [List.length_append, List.length_singleton, firstMoves_succ] at h2
  obtain ⟨e1, e2⟩ := List.append_inj' h2 rfl
  have hf : f RemoteEngineEx.two.length = E0 := by
    have := endless_remote h1 RemoteEngineEx.two.length
    rw [e1] at this
    exact Option.some.inj (this.symm.trans hreach)
  have hjobs : ∀ k j, (k, j) ∈ ρ0.wf.jobs → (k, j) ∈ (SystemEx.single "w").jobs := by
    intro k j h
    rwa [g2] at h
  refine ⟨f, a, RemoteEngineEx.two.length, ρ0, t0, s, h1, h4, h5, by rw [hf]; exact g1, ?_, ⟨?_, ?_⟩, ?_, by rw [hf]; exact g3, g4, ?_, ?_,
    by rw [g7]; simp, f1, f2, f3, f5, fun n hn => h6 n (by omega)⟩
  · rw [g2]; exact List.nodup_singleton "a"
  · intro k j k' j' h h' _
    have e : ∀ k j, (k, j) ∈ (SystemEx.single "w").jobs → k = "a" := by
      intro k j h; simp [SystemEx.single] at h; exact h.1
    exact (e k j (hjobs k j h)).trans (e k' j' (hjobs k' j' h')).symm
  · intro k j h s hs
    have := hjobs k j h
    simp [SystemEx.single] at this
    obtain ⟨rfl, rfl⟩ := this
    simp at hs
    subst hs
    rfl
  · intro k j h hd
    have := hjobs k j h
    simp [SystemEx.single] at this
    obtain ⟨rfl, rfl⟩ := this
    exact absurd rfl hd
  · rw [g5]; exact List.singleton_inj.1 e2
  · rw [hf, g6]; simp

end AstroRun
