import Verif.Lemmas.FairRemote
import Verif.Props.RemoteEngine

/-! # C118: on the remote runner, runs return when their servers are done -/

namespace AstroRun
open Spec

namespace FairRemoteLem
open FairLem FairLocalLem

/-- The `j`-th of three, again and again. -/
def every {α : Type} (g0 g1 g2 : Nat → α) (k : Nat) : α := if k % 3 = 0 then g0 (k / 3) else if k % 3 = 1 then g1 (k / 3) else g2 (k / 3)

theorem every_0 {α : Type} (g0 g1 g2 : Nat → α) (n : Nat) : every g0 g1 g2 (3 * n) = g0 n := by
  have h1 : 3 * n % 3 = 0 := by omega
  have h2 : 3 * n / 3 = n := by omega
  simp [every, h1, h2]

theorem every_1 {α : Type} (g0 g1 g2 : Nat → α) (n : Nat) : every g0 g1 g2 (3 * n + 1) = g1 n := by
  have h1 : (3 * n + 1) % 3 = 1 := by omega
  have h2 : (3 * n + 1) / 3 = n := by omega
  simp [every, h1, h2]

theorem every_2 {α : Type} (g0 g1 g2 : Nat → α) (n : Nat) : every g0 g1 g2 (3 * n + 2) = g2 n := by
  have h1 : (3 * n + 2) % 3 = 2 := by omega
  have h2 : (3 * n + 2) / 3 = n := by omega
  simp [every, h1, h2]

theorem three_cases (k : Nat) : ∃ n, k = 3 * n ∨ k = 3 * n + 1 ∨ k = 3 * n + 2 := ⟨k / 3, by omega⟩

theorem endless_remote {f : Nat → RemoteEngine} {a : Nat → RemoteEngineAct} (h : RemoteEndless f a) (n : Nat) :
    RemoteEngineReach (firstMoves a n) (f n) := by
  induction n with
  | zero => simp [RemoteEngineReach, firstMoves, runs, h.start]
  | succ n ih =>
    rw [firstMoves_succ]
    exact runs_snoc.2 ⟨f n, ih, h.moves n⟩

/-- Nothing of the engine's own. -/
theorem shadow_hidden {E : RemoteEngine} {a : RemoteEngineAct} {x0 x1 x2 : SysAct} (h : Shadow3 E a x0 x1 x2) :
    (∀ x, x = x1 ∨ x = x2 ∨ (∀ b, a ≠ .sys b) ∧ x = x0 → x = .tick 0 ∨ x.byRunner = true) ∧ ∀ b, a = .sys b → x0 = b ∧ b.byRunner = false := by
  have hw : ∀ {r i x}, IsWrite r i x → x.byRunner = true := by
    rintro r i x (⟨l, rfl⟩ | ⟨y, rfl⟩) <;> rfl
  cases a with
  | sys b =>
    obtain ⟨h1, h2, h3, h4⟩ := h
    refine ⟨?_, fun b' e => by cases e; exact ⟨h1, h2⟩⟩
    rintro x (rfl | rfl | ⟨h5, _⟩)
    · exact .inl h3
    · exact .inl h4
    · exact absurd rfl (h5 b)
  | dispatched r i sv =>
    obtain ⟨h1, h2, h3⟩ := h
    refine ⟨?_, fun b' e => by cases e⟩
    rintro x (rfl | rfl | ⟨_, rfl⟩)
    · exact .inl h2
    · exact .inl h3
    · rw [h1]; exact .inr rfl
  | noRunner r i =>
    obtain ⟨h1, h2, h3, _⟩ := h
    refine ⟨?_, fun b' e => by cases e⟩
    rintro x (rfl | rfl | ⟨_, rfl⟩)
    · exact .inr (hw h2)
    · rw [h3]; exact .inr rfl
    · exact .inr (hw h1)
  | net r i n b =>
    refine ⟨?_, fun b' e => by cases e⟩
    intro x hx
    exact (h x (by rcases hx with h | h | ⟨_, h⟩ <;> simp [h])).imp_right fun h => hw h.1
  | signalFailed r i n b =>
    refine ⟨?_, fun b' e => by cases e⟩
    intro x hx
    exact (h x (by rcases hx with h | h | ⟨_, h⟩ <;> simp [h])).imp_right fun h => hw h.1
  | stepCompleted r sv res =>
    obtain ⟨h1, h2, h3⟩ := h
    refine ⟨?_, fun b' e => by cases e⟩
    rintro x (rfl | rfl | ⟨_, rfl⟩)
    · exact .inl h2
    · exact .inl h3
    · exact .inl h1

theorem hidden_quiet {x : SysAct} (h : x = .tick 0 ∨ x.byRunner = true) :
    (∀ wf, x ≠ .start wf) ∧ ∀ r i b s, x ≠ .task r i (.nextStep b s) := by
  rcases h with rfl | h
  · simp
  · exact ⟨fun wf e => by rw [e] at h; simp [SysAct.byRunner] at h, fun r i b s e => by rw [e] at h; simp [SysAct.byRunner] at h⟩

theorem remoteEngineMoves_one (acts : List RemoteEngineAct) (a : RemoteEngineAct) :
    remoteEngineMoves (acts ++ [a]) = remoteEngineMoves acts ++ (match a with | .sys b => [b] | _ => []) := by
  simp only [remoteEngineMoves, List.filterMap_append, List.filterMap_cons, List.filterMap_nil]
  cases a <;> rfl

/-- The engine's moves, with the moves that write to the engine. -/
theorem shadow_apart {f : Nat → RemoteEngine} {a : Nat → RemoteEngineAct} {x0 x1 x2 : Nat → SysAct}
    (h : ∀ n, Shadow3 (f n) (a n) (x0 n) (x1 n) (x2 n)) (n : Nat) :
    Spec.started (firstMoves (every x0 x1 x2) (3 * n)) = Spec.started (remoteEngineMoves (firstMoves a n)) ∧
    ∀ r i b s, SysAct.task r i (.nextStep b s) ∈ firstMoves (every x0 x1 x2) (3 * n) →
      SysAct.task r i (.nextStep b s) ∈ remoteEngineMoves (firstMoves a n) := by
  induction n with
  | zero => exact ⟨rfl, fun r i b s hm => by simp [firstMoves] at hm⟩
  | succ n ih =>
    obtain ⟨i1, i2⟩ := ih
    have e : firstMoves (every x0 x1 x2) (3 * (n + 1)) = firstMoves (every x0 x1 x2) (3 * n) ++ [x0 n] ++ [x1 n] ++ [x2 n] := by
      rw [show 3 * (n + 1) = 3 * n + 1 + 1 + 1 by omega, firstMoves_succ, firstMoves_succ, firstMoves_succ,
        every_0, every_1, show 3 * n + 1 + 1 = 3 * n + 2 by omega, every_2]
    obtain ⟨h1, h2⟩ := shadow_hidden (h n)
    have q1 := hidden_quiet (h1 _ (.inl rfl))
    have q2 := hidden_quiet (h1 _ (.inr (.inl rfl)))
    have noStart : ∀ (l : List SysAct) (x : SysAct), (∀ wf, x ≠ .start wf) → Spec.started (l ++ [x]) = Spec.started l := by
      intro l x hx
      simp only [Spec.started, List.filterMap_append, List.filterMap_cons, List.filterMap_nil]
      cases x <;> first | simp | exact absurd rfl (hx _)
    rw [e, firstMoves_succ, remoteEngineMoves_one, noStart _ _ q2.1, noStart _ _ q1.1]
    by_cases hb : ∃ b, a n = .sys b
    · obtain ⟨b, hb⟩ := hb
      obtain ⟨k1, k2⟩ := h2 b hb
      rw [hb, k1]
      refine ⟨?_, fun r i c s hm => ?_⟩
      · simp only [Spec.started, List.filterMap_append] at i1 ⊢; rw [i1]
      · simp only [List.mem_append, List.mem_singleton] at hm ⊢
        rcases hm with ((hm | hm) | hm) | hm
        · exact .inl (i2 r i c s hm)
        · exact .inr hm
        · exact absurd hm.symm (q1.2 r i c s)
        · exact absurd hm.symm (q2.2 r i c s)
    · have q0 := hidden_quiet (h1 (x0 n) (.inr (.inr ⟨fun b e => hb ⟨b, e⟩, rfl⟩)))
      rw [noStart _ _ q0.1]
      have : (match a n with | .sys b => [b] | _ => ([] : List SysAct)) = [] := by
        cases ha : a n <;> first | rfl | exact absurd ⟨_, ha⟩ hb
      rw [this, List.append_nil]
      refine ⟨i1, fun r i c s hm => ?_⟩
      simp only [List.mem_append, List.mem_singleton] at hm
      rcases hm with ((hm | hm) | hm) | hm
      · exact i2 r i c s hm
      · exact absurd hm.symm (q0.2 r i c s)
      · exact absurd hm.symm (q1.2 r i c s)
      · exact absurd hm.symm (q2.2 r i c s)

/-- A run that has returned has returned. -/
theorem returned_stays {M M' : Sys} {a : SysAct} (h : M.step a = some M') {r : Nat} {ρ : SysRun} {res : WorkflowRunResult}
    (hr : M.runs[r]? = some ρ) (hp : ρ.pc = .returned res) : ∃ ρ', M'.runs[r]? = some ρ' ∧ ρ'.pc = .returned res := by
  rcases sys_step_cases h with ⟨wf, _, rfl⟩ | ⟨n, b, ρ₁, ρ₂, _, h2, h3, rfl⟩ | ⟨n, j, b, ρ₁, t, g', ρ', _, h2, h3, h4, rfl⟩ |
    ⟨n, _, rfl⟩ | ⟨j, x, _, rfl⟩
  · exact ⟨ρ, by simp only; rw [List.getElem?_append_left (List.getElem?_eq_some_iff.1 hr).1]; exact hr, hp⟩
  · by_cases he : n = r
    · subst he
      rw [hr] at h2
      cases h2
      cases b <;> simp [SysRun.main, hp] at h3
    · exact ⟨ρ, by simp only; rw [List.getElem?_set_ne he]; exact hr, hp⟩
  · by_cases he : n = r
    · subst he
      rw [hr] at h2
      cases h2
      obtain ⟨_, _, _, _, _, e, _⟩ := taskStep_frame h4
      exact ⟨ρ', by simp [(List.getElem?_eq_some_iff.1 hr).1], by rw [e]; exact hp⟩
    · exact ⟨ρ, by simp only; rw [List.getElem?_set_ne he]; exact hr, hp⟩
  · exact ⟨ρ, hr, hp⟩
  · exact ⟨ρ, hr, hp⟩

end FairRemoteLem

open FairLem FairLocalLem FairRemoteLem

/-- A run returns if the calls that its steps read from forever are over at some time. -/
theorem FairRemoteLem.remote_returns (f : Nat → RemoteEngine) (a : Nat → RemoteEngineAct) (hE : RemoteEndless f a)
    (hap : ∀ n, Apart (remoteEngineMoves (firstMoves a n))) (hk : ∀ n, RemoteEngineHooksKeepJobs (firstMoves a n)) (r n0 : Nat) (ρ0 : SysRun)
    (hr0 : (f n0).sys.runs[r]? = some ρ0) (hu : UniqueJobs ρ0.wf) (ho : OwnIds ρ0.wf) (hd : DepsDefined ρ0.wf) (hac : Acyclic ρ0.wf)
    (hne : ρ0.wf.jobs ≠ []) (hmain : WeaklyFair RemoteEngine.step f a (remoteMainOf r))
    (hjob : ∀ i, WeaklyFair RemoteEngine.step f a (remoteJobOf r i)) (hrecv : ∀ i, StronglyFair RemoteEngine.step f a (remoteRecvOf r i))
    (hcall : ∀ i n, WeaklyFair RemoteEngine.step f a (callOf r i n)) (hlost : BreaksNoticed f r) 
    (hend : ∀ i n K, (∀ k, K ≤ k → ∃ t, taskAt (f k).sys r i = some t ∧ t.pc.reading = true ∧ n + 1 = ((f k).calls r i).length) →
      Finally fun k => (∀ x, callAt (f k) r i n = some x → ServerOver x (callMoves r i n (firstMoves a k))) ∧
        ∀ l, a k ≠ .net r i n (.runnerPush l)) :
    ∃ n ρ res, n0 ≤ n ∧ (f n).sys.runs[r]? = some ρ ∧ ρ.pc = .returned res := by
  have hsh : ∀ n, ∃ x0 x1 x2 s1 s2, Thrice (f n).sys x0 x1 x2 s1 s2 (f (n + 1)).sys ∧ Shadow3 (f n) (a n) x0 x1 x2 :=
    fun n => remote_shadow (hE.moves n)
  choose x0 x1 x2 s1 s2 hx hxs using hsh
  let F := every (fun n => (f n).sys) s1 s2
  let X := every x0 x1 x2
  have F0 : ∀ n, F (3 * n) = (f n).sys := every_0 _ _ _
  have F1 : ∀ n, F (3 * n + 1) = s1 n := every_1 _ _ _
  have F2 : ∀ n, F (3 * n + 2) = s2 n := every_2 _ _ _
  have X0 : ∀ n, X (3 * n) = x0 n := every_0 _ _ _
  have X1 : ∀ n, X (3 * n + 1) = x1 n := every_1 _ _ _
  have X2 : ∀ n, X (3 * n + 2) = x2 n := every_2 _ _ _
  have hE' : Endless F X := by
    refine ⟨?_, fun k => ?_⟩
    · have := F0 0
      rw [Nat.mul_zero] at this
      rw [this, hE.start]; rfl
    · obtain ⟨n, rfl | rfl | rfl⟩ := three_cases k
      · rw [F0, X0, F1]; exact (hx n).1
      · rw [F1, X1, show 3 * n + 1 + 1 = 3 * n + 2 by omega, F2]; exact (hx n).2.1
      · rw [F2, X2, show 3 * n + 2 + 1 = 3 * (n + 1) by omega, F0]; exact (hx n).2.2
  have hpair : ∀ n r i, ∃ lab, (∀ m, callMoves r i m [a n] = labMoves m lab) ∧
      RMove lab (taskAt (f n).sys r i) (((f n).calls r i).map callView) (taskAt (f (n + 1)).sys r i) (((f (n + 1)).calls r i).map callView) :=
    fun n r i => (remote_move (hE.moves n)).2 r i
  have hnow : ∀ n i t, TaskNow F r i (3 * n) t ↔ taskAt (f n).sys r i = some t := by
    intro n i t
    unfold TaskNow taskAt
    rw [F0, Option.bind_eq_some_iff]
  have main : ∃ n ρ res, 3 * n0 ≤ n ∧ (F n).runs[r]? = some ρ ∧ ρ.pc = .returned res := by
    refine C112_fair_runs_return F X hE' ?_ ?_ r (3 * n0) ρ0 (by rw [F0]; exact hr0) hu ho hd hac hne ?_ ?_ ?_ ?_
    · intro n
      obtain ⟨h1, h2⟩ := shadow_apart hxs n
      have hA : Apart (firstMoves X (3 * n)) := by
        have := hap n
        exact ⟨h1 ▸ this.distinct, h1 ▸ this.own, fun r i b s hm => h1 ▸ this.hooks r i b s (h2 r i b s hm)⟩
      have : firstMoves X (3 * n) = firstMoves X n ++ ((List.range (2 * n)).map fun j => X (n + j)) := by
        unfold firstMoves
        rw [show 3 * n = n + 2 * n by omega, List.range_add, List.map_append, List.map_map]
        rfl
      rw [this] at hA
      exact hA.prefix
    · intro k
      induction k with
      | zero => intro pre r i b s post he; simp [firstMoves] at he
      | succ k ih =>
        rw [firstMoves_succ]
        refine ih.snoc (endless_reach hE' k) ?_
        intro r i b s he ρ t h1 h2
        obtain ⟨n, rfl | rfl | rfl⟩ := three_cases k
        · obtain ⟨g1, g2⟩ := shadow_hidden (hxs n)
          rw [X0] at he
          rw [F0] at h1
          by_cases hb : ∃ c, a n = .sys c
          · obtain ⟨c, hc⟩ := hb
            have := (g2 c hc).1
            rw [he] at this
            subst this
            have := hk (n + 1)
            rw [firstMoves_succ, hc] at this
            exact this (firstMoves a n) r i b s [] rfl (f n) (endless_remote hE n) t (by simp only [taskAt]; rw [h1]; exact h2)
          · exact absurd he ((hidden_quiet (g1 _ (.inr (.inr ⟨fun c e => hb ⟨c, e⟩, rfl⟩)))).2 r i b s)
        · rw [X1] at he
          exact absurd he ((hidden_quiet ((shadow_hidden (hxs n)).1 _ (.inl rfl))).2 r i b s)
        · rw [X2] at he
          exact absurd he ((hidden_quiet ((shadow_hidden (hxs n)).1 _ (.inr (.inl rfl)))).2 r i b s)
    · -- the main task
      rintro ⟨n, hn⟩
      have := hmain ⟨n, fun m hm => by
        obtain ⟨y, ⟨b, rfl⟩, hp⟩ := hn (3 * m) (by omega)
        rw [F0] at hp
        exact ⟨_, ⟨b, rfl⟩, rsys_possible rfl hp⟩⟩
      intro n
      obtain ⟨m, hm, b, hb⟩ := this n
      have hs := hxs m
      rw [hb] at hs
      exact ⟨3 * m, by omega, b, by rw [X0]; exact hs.1⟩
    · -- the job tasks
      rintro i ⟨n, hn⟩
      have := hjob i ⟨n, fun m hm => by
        obtain ⟨y, hy, hp⟩ := hn (3 * m) (by omega)
        rw [F0] at hp
        exact rjob_possible hy hp⟩
      intro n
      obtain ⟨m, hm, hc⟩ := this n
      have hs := hxs m
      rcases hc with ⟨y, hb, hw⟩ | ⟨sv, hb⟩ | hb
      · rw [hb] at hs
        exact ⟨3 * m, by omega, by show workOf r i (X (3 * m)); rw [X0, hs.1]; exact hw⟩
      · rw [hb] at hs
        exact ⟨3 * m, by omega, by show workOf r i (X (3 * m)); rw [X0, hs.1]; exact workOf_iff.2 ⟨_, rfl, trivial⟩⟩
      · rw [hb] at hs
        exact ⟨3 * m + 2, by omega, by show workOf r i (X (3 * m + 2)); rw [X2, hs.2.2.1]; exact workOf_iff.2 ⟨_, rfl, trivial⟩⟩
    · -- their `select!`
      intro i hf
      have hquiet : ∀ n y, y = x1 n ∨ y = x2 n → y = .tick 0 ∨ ∃ r' i', IsWrite r' i' y ∨ y = .task r' i' .accept := by
        intro n y hy
        have hs := hxs n
        cases ha : a n with
        | sys b =>
          rw [ha] at hs
          rcases hy with rfl | rfl
          · exact .inl hs.2.2.1
          · exact .inl hs.2.2.2
        | dispatched r' i' sv =>
          rw [ha] at hs
          rcases hy with rfl | rfl
          · exact .inl hs.2.1
          · exact .inl hs.2.2
        | noRunner r' i' =>
          rw [ha] at hs
          rcases hy with rfl | rfl
          · exact .inr ⟨r', i', .inl hs.2.1⟩
          · exact .inr ⟨r', i', .inr hs.2.2.1⟩
        | net r' i' k b =>
          rw [ha] at hs
          exact (hs y (.inr hy)).imp_right fun h => ⟨r', i', .inl h.1⟩
        | signalFailed r' i' k b =>
          rw [ha] at hs
          exact (hs y (.inr hy)).imp_right fun h => ⟨r', i', .inl h.1⟩
        | stepCompleted r' sv res =>
          rw [ha] at hs
          rcases hy with rfl | rfl
          · exact .inl hs.2.1
          · exact .inl hs.2.2
      have := hrecv i (by
        intro n
        obtain ⟨k, hk, y, hy, hp⟩ := hf (3 * n)
        have hy : y = _ := hy
        subst hy
        obtain ⟨m, rfl | rfl | rfl⟩ := three_cases k
        · rw [F0] at hp
          exact ⟨m, by omega, _, rfl, rsys_possible rfl hp⟩
        · rw [F1] at hp
          have p2 := recv_stays (hx m).2.1 (hquiet m _ (.inl rfl)) hp
          have p3 := recv_stays (hx m).2.2 (hquiet m _ (.inr rfl)) p2
          exact ⟨m + 1, by omega, _, rfl, rsys_possible rfl p3⟩
        · rw [F2] at hp
          have p3 := recv_stays (hx m).2.2 (hquiet m _ (.inr rfl)) hp
          exact ⟨m + 1, by omega, _, rfl, rsys_possible rfl p3⟩)
      intro n
      obtain ⟨m, hm, hc⟩ := this n
      have hs := hxs m
      rw [show a m = _ from hc] at hs
      exact ⟨3 * m, by omega, by show X (3 * m) = _; rw [X0]; exact hs.1⟩
    · -- the runner
      intro i n hact0
      have hact : ∀ m t, n ≤ m → taskAt (f m).sys r i = some t → t.pc.runnerActive = true :=
        fun m t hm ht => hact0 (3 * m) t (by omega) ((hnow m i t).2 ht)
      by_cases hex : ∃ m t, n ≤ m ∧ taskAt (f m).sys r i = some t
      · obtain ⟨m, t, hm, ht⟩ := hex
        have hev : ∀ k, m ≤ k → ∃ t, taskAt (f k).sys r i = some t := by
          intro k hk
          induction k with
          | zero => have : m = 0 := Nat.le_zero.1 hk; rw [this] at ht; exact ⟨t, ht⟩
          | succ k ih =>
            rcases Nat.lt_or_ge k m with h | h
            · have : m = k + 1 := by omega
              rw [this] at ht; exact ⟨t, ht⟩
            · obtain ⟨u, hu⟩ := ih h
              obtain ⟨lab, _, hp⟩ := hpair k r i
              rw [hu] at hp
              exact rmove_some hp
        -- the client answers
        obtain ⟨m1, t1, hm1, ht1, hr1⟩ : ∃ m1 t1, m ≤ m1 ∧ taskAt (f m1).sys r i = some t1 ∧ t1.pc.reading = true := by
          apply Classical.byContradiction
          intro hno
          have hcalling : ∀ k t, m ≤ k → taskAt (f k).sys r i = some t → ∃ s t0 ref, t.pc = .calling s t0 ref := by
            intro k t hk ht
            refine active_cases (hact k t (by omega) ht) ?_
            cases hq : t.pc.reading with
            | false => rfl
            | true => exact absurd ⟨k, t, hk, ht, hq⟩ hno
          obtain ⟨k, hk, hc⟩ := hjob i ⟨m, fun k hk => by
            obtain ⟨u, hu⟩ := hev k hk
            obtain ⟨s, t0, ref, hpc⟩ := hcalling k u hk hu
            exact ⟨_, .inr (.inl ⟨_, rfl⟩), dispatched_possible hu hpc⟩⟩ m
          obtain ⟨u, hu⟩ := hev k hk
          obtain ⟨s, t0, ref, hpc⟩ := hcalling k u hk hu
          obtain ⟨u', hu'⟩ := hev (k + 1) (by omega)
          obtain ⟨s', t0', ref', hpc'⟩ := hcalling (k + 1) u' (by omega) hu'
          have hmv := hE.moves k
          obtain ⟨ρ, hρ, htt⟩ := taskAt_some hu
          have hdone : ∀ lab vs vs', RMove lab (some u) vs (some u') vs' → vs'.length = vs.length + 1 → False := by
            intro lab vs vs' hr hl
            generalize ho : some u = o at hr
            generalize ho' : some u' = o' at hr
            cases hr with
            | same => omega
            | born => cases ho
            | eng => split at hl <;> simp at hl
            | dispatched => cases ho'; cases hpc'
            | refused => cases ho'; cases hpc'
            | other => simp at hl
            | wrote => simp at hl
          obtain ⟨lab, _, hp⟩ := hpair k r i
          rw [hu, hu'] at hp
          rcases hc with ⟨y, hy, hw⟩ | ⟨sv, hy⟩ | hy
          · rw [hy] at hmv
            obtain ⟨b, rfl, hb⟩ := workOf_iff.1 hw
            cases b <;> simp [RemoteEngine.step, SysAct.byRunner, Sys.step, hρ, htt, Sys.taskStep, SysTask.step, hpc, FairLem.isWork] at hmv hb
          · rw [hy] at hmv
            refine hdone _ _ _ hp ?_
            simp only [RemoteEngine.step] at hmv
            split at hmv
            · simp only [Option.map_eq_some_iff] at hmv
              obtain ⟨M, _, e⟩ := hmv
              rw [← e]; simp [updCalls]
            · cases hmv
          · rw [hy] at hmv
            refine hdone _ _ _ hp ?_
            simp only [RemoteEngine.step] at hmv
            split at hmv
            · simp only [Option.map_eq_some_iff] at hmv
              obtain ⟨M, _, e⟩ := hmv
              rw [← e]; simp [updCalls]
            · cases hmv
        -- the step is read from now on
        have hread : ∀ k, m1 ≤ k → ∃ t, taskAt (f k).sys r i = some t ∧ t.pc.reading = true ∧ ((f k).calls r i).length = ((f m1).calls r i).length := by
          intro k hk
          induction k with
          | zero => have : m1 = 0 := Nat.le_zero.1 hk; subst this; exact ⟨t1, ht1, hr1, rfl⟩
          | succ k ih =>
            rcases Nat.lt_or_ge k m1 with h | h
            · have : m1 = k + 1 := by omega
              subst this; exact ⟨t1, ht1, hr1, rfl⟩
            · obtain ⟨u, hu, h2, h3⟩ := ih h
              obtain ⟨u', hu'⟩ := hev (k + 1) (by omega)
              obtain ⟨lab, _, hp⟩ := hpair k r i
              rw [hu, hu'] at hp
              obtain ⟨q1, q2⟩ := rmove_reading hp h2 (hact (k + 1) u' (by omega) hu')
              simp only [List.length_map] at q2
              exact ⟨u', hu', q1, q2.trans h3⟩
        -- what else is written to the engine
        have hwrite : ∀ k y, m1 ≤ k → IsWrite r i y → y = x0 k ∨ y = x1 k ∨ y = x2 k →
            ∃ b, b ∈ callMoves r i (((f m1).calls r i).length - 1) [a k] ∧ getsOn b = true := by
          intro k y hk hw hy
          obtain ⟨u, hu, hur, hlen⟩ := hread k hk
          have hs := hxs k
          have hsame : ∀ r' i', IsWrite r' i' y → r' = r ∧ i' = i := by
            rintro r' i' (⟨l, rfl⟩ | ⟨z, rfl⟩) <;> rcases hw with ⟨l', hw⟩ | ⟨z', hw⟩ <;> cases hw <;> exact ⟨rfl, rfl⟩
          have hnt : ∀ q, y ≠ .tick q := by
            rintro q rfl
            rcases hw with ⟨l', hw⟩ | ⟨z', hw⟩ <;> cases hw
          have hnb : y.byRunner = true := by rcases hw with ⟨l', rfl⟩ | ⟨z', rfl⟩ <;> rfl
          have hna : ∀ r' i', y ≠ .task r' i' .accept := by
            rintro r' i' rfl
            rcases hw with ⟨l', hw⟩ | ⟨z', hw⟩ <;> cases hw
          cases ha : a k with
          | sys b =>
            rw [ha] at hs
            obtain ⟨e1, e2, e3, e4⟩ := hs
            rcases hy with rfl | rfl | rfl
            · rw [e1, e2] at hnb; cases hnb
            · exact absurd e3 (hnt 0)
            · exact absurd e4 (hnt 0)
          | dispatched r' i' sv =>
            rw [ha] at hs
            obtain ⟨e1, e2, e3⟩ := hs
            rcases hy with rfl | rfl | rfl
            · exact absurd e1 (hna _ _)
            · exact absurd e2 (hnt 0)
            · exact absurd e3 (hnt 0)
          | noRunner r' i' =>
            rw [ha] at hs
            obtain ⟨e1, e2, e3, v, st, t0, ref, e4, e5⟩ := hs
            exfalso
            have : r' = r ∧ i' = i := by
              rcases hy with rfl | rfl | rfl
              · exact hsame _ _ e1
              · exact hsame _ _ e2
              · exact absurd e3 (hna _ _)
            obtain ⟨rfl, rfl⟩ := this
            rw [hu] at e4
            cases e4
            rw [e5] at hur
            cases hur
          | net r' i' n' b =>
            rw [ha] at hs
            rcases hs y hy with e | ⟨e1, e2, e3, _⟩
            · exact absurd e (hnt 0)
            · obtain ⟨rfl, rfl⟩ := hsame _ _ e1
              refine ⟨b, ?_, e2⟩
              have : n' = ((f m1).calls r' i').length - 1 := by omega
              simp [callMoves, this]
          | signalFailed r' i' n' b =>
            rw [ha] at hs
            rcases hs y hy with e | ⟨e1, e3, _⟩
            · exact absurd e (hnt 0)
            · obtain ⟨rfl, rfl⟩ := hsame _ _ e1
              refine ⟨.sigErr, ?_, rfl⟩
              have : n' = ((f m1).calls r' i').length - 1 := by omega
              simp [callMoves, this]
          | stepCompleted r' sv res =>
            rw [ha] at hs
            obtain ⟨e1, e2, e3⟩ := hs
            rcases hy with rfl | rfl | rfl
            · exact absurd e1 (hnt 0)
            · exact absurd e2 (hnt 0)
            · exact absurd e3 (hnt 0)
        -- it suffices that the call gets no further on, and the stream has ended
        have hsuff : ∀ K, m1 ≤ K → (∀ k b, K ≤ k → b ∈ callMoves r i (((f m1).calls r i).length - 1) [a k] → getsOn b = false) →
            (∀ t, taskAt (f K).sys r i = some t → t.stream.result ≠ none) →
            ∃ m, n ≤ m ∧ (∀ t, TaskNow F r i m t → t.stream.result ≠ none) ∧ ∀ k l, m ≤ k → X k ≠ .task r i (.push l) := by
          intro K hK h1 h2
          refine ⟨3 * K, by omega, fun t ht => h2 t ((hnow K i t).1 ht), fun k l hk he => ?_⟩
          obtain ⟨q, hq, hqy⟩ : ∃ q, K ≤ q ∧ (X k = x0 q ∨ X k = x1 q ∨ X k = x2 q) := by
            obtain ⟨q, rfl | rfl | rfl⟩ := three_cases k
            · exact ⟨q, by omega, .inl (X0 q)⟩
            · exact ⟨q, by omega, .inr (.inl (X1 q))⟩
            · exact ⟨q, by omega, .inr (.inr (X2 q))⟩
          obtain ⟨b, hb1, hb2⟩ := hwrite q (X k) (by omega) (.inl ⟨l, he⟩) hqy
          rw [h1 q b hq hb1] at hb2
          cases hb2
        generalize hLdef : ((f m1).calls r i).length - 1 = L at hsuff
        have hlink : ∀ k, m1 ≤ k → ∃ t, taskAt (f k).sys r i = some t ∧ t.pc.reading = true ∧ (((f k).calls r i)[L]? = some none ∧ t.stream.result ≠ none ∨
            ∃ x na, callAt (f k) r i L = some x ∧ RemoteReach na x.net ∧ na.filter notEngine = callMoves r i L (firstMoves a k) ∧
              x.net.outer.result = t.stream.result) := by
          intro k hk
          obtain ⟨t, ht, htr, hlen⟩ := hread k hk
          have hp := rpair (endless_remote hE k) ht
          obtain ⟨st, D, o, H, a1, a2, a3, _⟩ := hp.link htr
          have hL : L = D.length := by
            have := congrArg List.length a2
            simp only [List.length_map, List.length_append, List.length_singleton] at this
            omega
          have hg : (((f k).calls r i).map callView)[L]? = some o := by rw [a2, hL]; simp
          refine ⟨t, ht, htr, ?_⟩
          cases o with
          | none =>
            left
            rw [List.getElem?_map] at hg
            cases hq : ((f k).calls r i)[L]? with
            | none => rw [hq] at hg; cases hg
            | some q =>
              rw [hq] at hg
              cases q with
              | none => exact ⟨rfl, by rw [a3.2]; simp⟩
              | some x => cases hg
          | some y =>
            right
            obtain ⟨x, k1, k2, k3⟩ := view_callAt hg
            obtain ⟨na, q1, q2⟩ := hp.reach L y.1 y.2 hg
            exact ⟨x, na, k1, by rw [k3]; exact q1, q2, by rw [k3]; exact a3.2.2.1⟩
        obtain ⟨tm, htm, htmr, hcase⟩ := hlink m1 (Nat.le_refl _)
        rcases hcase with ⟨hnone, hres⟩ | ⟨xm, nam, hxm, _⟩
        · -- no runner was found
          have hstay : ∀ k, m1 ≤ k → ((f k).calls r i)[L]? = some none := by
            intro k hk
            induction k with
            | zero => have : m1 = 0 := Nat.le_zero.1 hk; subst this; exact hnone
            | succ k ih =>
              rcases Nat.lt_or_ge k m1 with h | h
              · have : m1 = k + 1 := by omega
                subst this; exact hnone
              · have hc := ih h
                obtain ⟨t', ht', htr', hc'⟩ := hlink (k + 1) (by omega)
                rcases hc' with hc' | ⟨x, na, hxx, _⟩
                · exact hc'.1
                · exfalso
                  have hv' := callAt_view hxx
                  obtain ⟨lab, _, hp⟩ := hpair k r i
                  have hv : (((f k).calls r i).map callView)[L]? = some none := by simp [hc, callView]
                  have hlt := (List.getElem?_eq_some_iff.1 hv).1
                  generalize ((f k).calls r i).map callView = vs at hp hv hlt
                  generalize ((f (k + 1)).calls r i).map callView = vs' at hp hv'
                  generalize taskAt (f k).sys r i = ot at hp
                  generalize taskAt (f (k + 1)).sys r i = ot' at hp
                  cases hp with
                  | same => rw [hv] at hv'; cases hv'
                  | born => rw [hv] at hv'; cases hv'
                  | eng =>
                    split at hv'
                    · rw [List.getElem?_modify, hv] at hv'
                      split at hv' <;> cases hv'
                    · rw [hv] at hv'; cases hv'
                  | dispatched => rw [List.getElem?_append_left hlt, hv] at hv'; cases hv'
                  | refused => rw [List.getElem?_append_left hlt, hv] at hv'; cases hv'
                  | other _ _ q b c m m' hget =>
                    have : q ≠ L := by rintro rfl; rw [hv] at hget; cases hget
                    rw [List.getElem?_set_ne this, hv] at hv'; cases hv'
                  | wrote _ _ q b c m m' hget =>
                    have : q ≠ L := by rintro rfl; rw [hv] at hget; cases hget
                    rw [List.getElem?_set_ne this, hv] at hv'; cases hv'
          refine hsuff m1 (Nat.le_refl _) (fun k b hk hb => ?_) (fun t ht => by rw [htm] at ht; cases ht; exact hres)
          exfalso
          have hc := hstay k hk
          have hmv := hE.moves k
          cases ha : a k with
          | net r' i' n' b' =>
            rw [ha] at hb hmv
            simp only [callMoves, List.filterMap_cons, List.filterMap_nil] at hb
            split at hb
            · simp at hb
            · rename_i hq
              split at hq
              · rename_i he
                obtain ⟨rfl, rfl, rfl⟩ := he
                simp [RemoteEngine.step, hc] at hmv
              · cases hq
          | signalFailed r' i' n' b' =>
            rw [ha] at hb hmv
            simp only [callMoves, List.filterMap_cons, List.filterMap_nil] at hb
            split at hb
            · simp at hb
            · rename_i hq
              split at hq
              · rename_i he
                obtain ⟨rfl, rfl, rfl⟩ := he
                simp [RemoteEngine.step, hc] at hmv
              · cases hq
          | _ => rw [ha] at hb; simp [callMoves] at hb
        · -- there is a call
          have hcallAt : ∀ k, m1 ≤ k → ∃ x, callAt (f k) r i L = some x := by
            intro k hk
            induction k with
            | zero => have : m1 = 0 := Nat.le_zero.1 hk; subst this; exact ⟨xm, hxm⟩
            | succ k ih =>
              rcases Nat.lt_or_ge k m1 with h | h
              · have : m1 = k + 1 := by omega
                subst this; exact ⟨xm, hxm⟩
              · obtain ⟨x, hx⟩ := ih h
                by_cases hpush : ∃ l, a k = .net r i L (.runnerPush l)
                · obtain ⟨l, hl⟩ := hpush
                  have hmv := hE.moves k
                  rw [hl] at hmv
                  obtain ⟨x', m', hget, _, _, hcs⟩ := renet_step hmv
                  rcases hcs with ⟨h | ⟨e, h⟩, _⟩ | ⟨v, h, _⟩ | ⟨_, _, _, e⟩
                  · cases h
                  · cases h
                  · cases h
                  · refine ⟨{ x' with net := m' }, callAt_iff.2 ?_⟩
                    rw [e]
                    simp [RemoteEngine.moved, updCalls, (List.getElem?_eq_some_iff.1 hget).1]
                · obtain ⟨x', h1, _⟩ := call_move (hE.moves k) hx (fun l e => hpush ⟨l, e⟩)
                  exact ⟨x', h1⟩
          obtain ⟨N, hN⟩ := hend i L m1 fun k hk => by
            obtain ⟨t, h1, h2, h3⟩ := hread k hk
            have hlt := (List.getElem?_eq_some_iff.1 (callAt_iff.1 hxm)).1
            exact ⟨t, h1, h2, by omega⟩
          have hstop : ∃ K, m1 ≤ K ∧ N ≤ K ∧ ∀ k b, K ≤ k → b ∈ callMoves r i L [a k] → getsOn b = false := by
            apply Classical.byContradiction
            intro hno
            let w : Nat → Nat := fun k => ((callAt (f k) r i L).map fun y => callWork y.net).getD 0
            have hw : ∀ k, m1 + N ≤ k → w (k + 1) ≤ w k ∧ ∀ b, b ∈ callMoves r i L [a k] → getsOn b = true → w (k + 1) < w k := by
              intro k hk
              obtain ⟨x, hx⟩ := hcallAt k (by omega)
              obtain ⟨x', h1, h2, h3, _⟩ := call_move (hE.moves k) hx (hN k (by omega)).2
              simp only [w, hx, h1, Option.map_some, Option.getD_some]
              exact ⟨h2, h3⟩
            refine no_descent w (m1 + N) (fun k hk => (hw k hk).1) ?_
            intro k hk
            apply Classical.byContradiction
            intro hnd
            refine hno ⟨k, by omega, by omega, fun j b hj hb => ?_⟩
            rcases Bool.eq_false_or_eq_true (getsOn b) with hg | hg
            · exact absurd ⟨j, hj, (hw j (by omega)).2 b hb hg⟩ hnd
            · exact hg
          obtain ⟨K, hK1, hK2, hK⟩ := hstop
          -- at some time nothing in the call can move and its connection is not broken
          obtain ⟨m2, hm2, hstuck, hok⟩ : ∃ m2, K ≤ m2 ∧ ¬ Possible RemoteEngine.step f (callOf r i L) m2 ∧
              ∀ x, callAt (f m2) r i L = some x → x.net.dropped = true → x.net.cli ≠ .streaming := by
            apply Classical.byContradiction
            intro hno
            by_cases hst : ∃ m2, K ≤ m2 ∧ ¬ Possible RemoteEngine.step f (callOf r i L) m2
            · obtain ⟨m2, hm2, hstuck⟩ := hst
              obtain ⟨x, hx, hx1, hx2⟩ : ∃ x, callAt (f m2) r i L = some x ∧ x.net.dropped = true ∧ x.net.cli = .streaming := by
                apply Classical.byContradiction
                intro hn
                exact hno ⟨m2, hm2, hstuck, fun x h1 h2 h3 => hn ⟨x, h1, h2, h3⟩⟩
              refine hlost i L ⟨m2, fun k hk => ?_⟩
              induction k with
              | zero => have : m2 = 0 := Nat.le_zero.1 hk; subst this; exact ⟨x, hx, hx1, hx2⟩
              | succ k ih =>
                rcases Nat.lt_or_ge k m2 with h | h
                · have : m2 = k + 1 := by omega
                  subst this; exact ⟨x, hx, hx1, hx2⟩
                · obtain ⟨y, hy, hy1, hy2⟩ := ih h
                  obtain ⟨y', h1, _, _, h4, h5⟩ := call_move (hE.moves k) hy (hN k (by omega)).2
                  exact ⟨y', h1, h4 hy1, by rw [h5 fun b hb => hK k b (by omega) hb]; exact hy2⟩
            · obtain ⟨k, hk, b, hb, hb2⟩ := hcall i L ⟨K, fun k hk => Classical.byContradiction fun hp => hst ⟨k, hk, hp⟩⟩ K
              have hmv := hE.moves k
              rw [hb] at hmv
              obtain ⟨_, _, _, hbs, _⟩ := renet_step hmv
              have := hK k b hk (by rw [hb]; simp [callMoves])
              cases b <;> first | (cases this; done) | (cases hb2; done) | cases hbs
          obtain ⟨t, ht, htr, hcs⟩ := hlink m2 (by omega)
          obtain ⟨x, hxx⟩ := hcallAt m2 (by omega)
          rcases hcs with ⟨hn, _⟩ | ⟨x', na, hx', hna, hfil, hres⟩
          · rw [callAt_iff.1 hxx] at hn; cases hn
          · rw [hxx] at hx'
            cases hx'
            have hov := (hN m2 (by omega)).1 x hxx
            have f1 := (filter_rel na).1
            rw [hfil] at f1
            have hsome := stuck_call hna (fun b e1 e2 => by
                cases hb : x.net.step b with
                | none => rfl
                | some y => exact absurd ⟨_, ⟨b, rfl, e1⟩, net_possible hxx (by cases b <;> first | exact absurd rfl e2 | rfl | cases e1)
                    (by rw [hb]; simp)⟩ hstuck)
              (hok x hxx) (by unfold ServerOver at hov; rw [f1] at hov; exact hov)
            refine hsuff m2 (by omega) (fun k b hk => hK k b (by omega)) (fun u hu => ?_)
            rw [ht] at hu
            cases hu
            rw [← hres]
            exact Option.isSome_iff_ne_none.1 hsome
      · refine ⟨3 * n, by omega, fun t ht => absurd ⟨n, t, Nat.le_refl _, (hnow n i t).1 ht⟩ hex, ?_⟩
        intro k l hk he
        -- nobody writes for a task that does not exist
        have hnone : ∀ q, n ≤ q → taskAt (f q).sys r i = none := by
          intro q hq
          cases hh : taskAt (f q).sys r i with
          | none => rfl
          | some t => exact absurd ⟨q, t, hq, hh⟩ hex
        have hst := hE'.moves k
        rw [he] at hst
        obtain ⟨_, t, _, _, ht, _⟩ := task_act hst
        obtain ⟨q, hq⟩ := three_cases k
        have hlater : ∀ k', k ≤ k' → ∃ t, taskAt (F k') r i = some t := by
          intro k' hk'
          induction k' with
          | zero => have : k = 0 := Nat.le_zero.1 hk'; subst this; exact ⟨t, ht⟩
          | succ k' ih =>
            rcases Nat.lt_or_ge k' k with h | h
            · have : k = k' + 1 := by omega
              rw [← this]; exact ⟨t, ht⟩
            · obtain ⟨u, hu⟩ := ih h
              have hm := hE'.moves k'
              by_cases hta : ∃ r i b, X k' = .task r i b
              · obtain ⟨r0, i0, b, hb⟩ := hta
                rw [hb] at hm
                rcases sys_step_cases hm with ⟨wf, h1, _⟩ | ⟨n, b', ρ₁, ρ₂, h1, _⟩ |
                  ⟨n, j, b', ρ, t, g', ρ', h1, hρ, htt, hmm, e⟩ | ⟨n, h1, _⟩ | ⟨j, x, h1, _⟩
                all_goals cases h1
                obtain ⟨t', e1, _⟩ := taskStep_frame hmm
                rw [e]
                by_cases hri : r = r0 ∧ i = i0
                · obtain ⟨rfl, rfl⟩ := hri
                  refine ⟨t', ?_⟩
                  simp only [taskAt, List.getElem?_set_self (List.getElem?_eq_some_iff.1 hρ).1, Option.bind_some]
                  rw [e1]; simp [(List.getElem?_eq_some_iff.1 htt).1]
                · exact ⟨u, by rw [taskAt_set_ne hρ e1 hri]; exact hu⟩
              · rcases taskAt_main hm (fun r i b e => hta ⟨r, i, b, e⟩) r i with e | ⟨e1, _⟩
                · exact ⟨u, by rw [e]; exact hu⟩
                · rw [hu] at e1; cases e1
        obtain ⟨u, hu⟩ := hlater (3 * (q + 1)) (by omega)
        rw [F0, hnone (q + 1) (by omega)] at hu
        cases hu
  obtain ⟨n, ρ, res, hn, h1, h2⟩ := main
  -- a run that has returned has returned
  obtain ⟨q, hq⟩ := three_cases n
  have hstay : ∀ k, n ≤ k → ∃ ρ, (F k).runs[r]? = some ρ ∧ ρ.pc = .returned res := by
    intro k hk
    induction k with
    | zero => have : n = 0 := Nat.le_zero.1 hk; subst this; exact ⟨ρ, h1, h2⟩
    | succ k ih =>
      rcases Nat.lt_or_ge k n with h | h
      · have : n = k + 1 := by omega
        subst this; exact ⟨ρ, h1, h2⟩
      · obtain ⟨ρ', k1, k2⟩ := ih h
        exact returned_stays (hE'.moves k) k1 k2
  obtain ⟨ρ', k1, k2⟩ := hstay (3 * (q + 1)) (by omega)
  rw [F0] at k1
  exact ⟨q + 1, ρ', res, by omega, k1, k2⟩

/-- **C118** An engine on the remote runner, in any endless execution, whatever its users, its other workflows and the network do: if the
main task and the job tasks of a run are not starved, the `select!` of a step does not ignore its stream forever, the client's and
servers' tasks and the transport of the run's calls go on, broken connections are noticed and the runners on the servers end their
streams (or their tasks die), then the run returns. -/
theorem C118_servers_end_runs_return (f : Nat → RemoteEngine) (a : Nat → RemoteEngineAct) (hE : RemoteEndless f a)
    (hap : ∀ n, Apart (remoteEngineMoves (firstMoves a n))) (hk : ∀ n, RemoteEngineHooksKeepJobs (firstMoves a n)) (r n0 : Nat) (ρ0 : SysRun)
    (hr0 : (f n0).sys.runs[r]? = some ρ0) (hu : UniqueJobs ρ0.wf) (ho : OwnIds ρ0.wf) (hd : DepsDefined ρ0.wf) (hac : Acyclic ρ0.wf)
    (hne : ρ0.wf.jobs ≠ []) (hmain : WeaklyFair RemoteEngine.step f a (remoteMainOf r))
    (hjob : ∀ i, WeaklyFair RemoteEngine.step f a (remoteJobOf r i)) (hrecv : ∀ i, StronglyFair RemoteEngine.step f a (remoteRecvOf r i))
    (hcall : ∀ i n, WeaklyFair RemoteEngine.step f a (callOf r i n)) (hlost : BreaksNoticed f r) (hend : ServersEnd f a r) :
    ∃ n ρ res, n0 ≤ n ∧ (f n).sys.runs[r]? = some ρ ∧ ρ.pc = .returned res :=
  remote_returns f a hE hap hk r n0 ρ0 hr0 hu ho hd hac hne hmain hjob hrecv hcall hlost fun i n _ _ => hend i n

theorem FairRemoteLem.callMoves_later {r i n : Nat} {acts : List RemoteEngineAct} (k : Nat) :
    callMoves r i n (acts ++ List.replicate k (.sys (.tick 0))) = callMoves r i n acts := by
  induction k with
  | zero => simp
  | succ k ih =>
    rw [List.replicate_succ', ← List.append_assoc, callMoves_snoc, ih]
    simp [callMoves]

theorem FairRemoteLem.remoteKeep_prefix {pre post : List RemoteEngineAct} (h : RemoteEngineHooksKeepJobs (pre ++ post)) :
    RemoteEngineHooksKeepJobs pre :=
  fun p r i b s q e => h p r i b s (q ++ post) (by rw [e]; simp)

/-- A schedule after which nothing of run `r` is left to do and whose servers are done with `r`, continued by the clock. -/
theorem FairRemoteLem.remote_idle_forever {acts : List RemoteEngineAct} {E : RemoteEngine} (h : RemoteEngineReach acts E)
    (ha : Apart (remoteEngineMoves acts)) (hk : RemoteEngineHooksKeepJobs acts) {r : Nat} (hs : RemoteRunStuck E r)
    (hover : ∀ i n x, callAt E r i n = some x → ServerOver x (callMoves r i n acts)) :
    ∃ f a, RemoteEndless f a ∧ (∀ n, Apart (remoteEngineMoves (firstMoves a n))) ∧ (∀ n, RemoteEngineHooksKeepJobs (firstMoves a n)) ∧
      WeaklyFair RemoteEngine.step f a (remoteMainOf r) ∧ (∀ i, WeaklyFair RemoteEngine.step f a (remoteJobOf r i)) ∧
      (∀ i, StronglyFair RemoteEngine.step f a (remoteRecvOf r i)) ∧ (∀ i n, WeaklyFair RemoteEngine.step f a (callOf r i n)) ∧
      BreaksNoticed f r ∧ ServersEnd f a r ∧ ∀ n, RemoteEngineReach (acts.take n) (f n) := by
  let a : Nat → RemoteEngineAct := fun n => acts.getD n (.sys (.tick 0))
  let f : Nat → RemoteEngine := fun n => (runs RemoteEngine.step RemoteEngine.initial (acts.take n)).getD RemoteEngine.initial
  have hpre : ∀ n, runs RemoteEngine.step RemoteEngine.initial (acts.take n) = some (f n) := by
    intro n
    have : runs RemoteEngine.step RemoteEngine.initial (acts.take n ++ acts.drop n) = some E := by rw [List.take_append_drop]; exact h
    obtain ⟨s0, h0, _⟩ := runs_split this
    simp [f, h0]
  have hlate : ∀ n, acts.length ≤ n → f n = E := by
    intro n hn
    have := hpre n
    rw [List.take_of_length_le hn] at this
    exact Option.some.inj (this.symm.trans h)
  have htick : ∀ n, acts.length ≤ n → a n = .sys (.tick 0) := by
    intro n hn
    simp [a, List.getD_eq_getElem?_getD, List.getElem?_eq_none hn]
  have hE : RemoteEndless f a := by
    refine ⟨by simp [f, runs], fun n => ?_⟩
    rcases Nat.lt_or_ge n acts.length with hn | hn
    · have h1 := hpre (n + 1)
      rw [List.take_succ_eq_append_getElem hn] at h1
      obtain ⟨s0, h2, h3⟩ := runs_snoc.1 h1
      rw [hpre n] at h2
      cases h2
      have : a n = acts[n] := by simp [a, List.getD_eq_getElem?_getD, List.getElem?_eq_getElem hn]
      rw [this]; exact h3
    · rw [hlate n hn, hlate (n + 1) (by omega), htick n hn]
      simp [RemoteEngine.step, SysAct.byRunner, tick_zero, RemoteEngine.shared]
  have hfirst : ∀ n, n ≤ acts.length → firstMoves a n = acts.take n := by
    intro n hn
    refine List.ext_getElem (by simp [firstMoves]; omega) ?_
    intro k h1 h2
    have hk : k < n := by simpa [firstMoves] using h1
    have hk' : k < acts.length := by omega
    simp [firstMoves, a, List.getD_eq_getElem?_getD, List.getElem?_eq_getElem hk']
  have hafter : ∀ k, firstMoves a (acts.length + k) = acts ++ List.replicate k (.sys (.tick 0)) := by
    intro k
    induction k with
    | zero => rw [Nat.add_zero, hfirst _ (Nat.le_refl _)]; simp
    | succ k ih =>
      rw [← Nat.add_assoc, firstMoves_succ, ih, htick _ (by omega), List.replicate_succ', List.append_assoc]
  have hstay : ∀ n, Apart (remoteEngineMoves (firstMoves a n)) ∧ RemoteEngineHooksKeepJobs (firstMoves a n) := by
    intro n
    induction n with
    | zero =>
      have e : firstMoves a 0 = [] := rfl
      rw [e]
      exact ⟨⟨by simp [Spec.started, remoteEngineMoves], by simp [Spec.started, remoteEngineMoves], by simp [remoteEngineMoves]⟩,
        by intro pre r i b s post he; simp at he⟩
    | succ n ih =>
      rcases Nat.lt_or_ge n acts.length with hn | hn
      · have e2 : firstMoves a (n + 1) ++ acts.drop (n + 1) = acts := by
          rw [hfirst _ hn, List.take_append_drop]
        have e3 : remoteEngineMoves (firstMoves a (n + 1)) ++ remoteEngineMoves (acts.drop (n + 1)) = remoteEngineMoves acts := by
          conv => rhs; rw [← e2]
          simp [remoteEngineMoves, List.filterMap_append]
        exact ⟨Apart.prefix (e3 ▸ ha), remoteKeep_prefix (e2.symm ▸ hk)⟩
      · rw [firstMoves_succ, htick n hn]
        refine ⟨by rw [remoteEngineMoves_one]; exact ih.1.snoc (by simp) (by simp), ?_⟩
        intro pre r i b s post he E' hE' t ht
        rcases List.eq_nil_or_concat post with rfl | ⟨post', y, rfl⟩
        · obtain ⟨_, hx⟩ := List.append_inj' he rfl
          simp at hx
        · have he' : firstMoves a n ++ [.sys (.tick 0)] = (pre ++ RemoteEngineAct.sys (.task r i (.nextStep b s)) :: post') ++ [y] := by
            rw [he]; simp
          obtain ⟨e1, _⟩ := List.append_inj' he' rfl
          exact ih.2 pre r i b s post' e1 E' hE' t ht
  have hnot : ∀ (c : RemoteEngineAct → Prop), (∀ y, c y → E.step y = none) → ∀ n, acts.length ≤ n → ¬ Possible RemoteEngine.step f c n := by
    rintro c hc n hn ⟨y, hy, h1⟩
    rw [hlate n hn] at h1
    exact h1 (hc y hy)
  have hmax : ∀ n, acts.length ≤ n + acts.length := by omega
  refine ⟨f, a, hE, fun n => (hstay n).1, fun n => (hstay n).2, ?_, ?_, ?_, ?_, ?_, ?_, hpre⟩
  · rintro ⟨n, hn⟩
    exact absurd (hn _ (Nat.le_add_right n acts.length)) (hnot _ (by rintro y ⟨b, rfl⟩; exact hs.engine _ rfl) _ (hmax n))
  · rintro i ⟨n, hn⟩
    refine absurd (hn _ (Nat.le_add_right n acts.length)) (hnot _ ?_ _ (hmax n))
    rintro y (⟨z, rfl, hz⟩ | ⟨sv, rfl⟩ | rfl)
    · obtain ⟨b, rfl, _⟩ := workOf_iff.1 hz
      exact hs.engine _ rfl
    · exact (hs.client i sv).1
    · exact (hs.client i "").2
  · intro i hi
    obtain ⟨m, hm, hp⟩ := hi acts.length
    exact absurd hp (hnot _ (by rintro y rfl; exact hs.engine _ rfl) _ hm)
  · rintro i k ⟨n, hn⟩
    exact absurd (hn _ (Nat.le_add_right n acts.length)) (hnot _ (by rintro y ⟨b, rfl, h1⟩; exact hs.calls i k b h1) _ (hmax n))
  · rintro i n ⟨k, hk⟩
    obtain ⟨x, hx, h1, h2⟩ := hk _ (Nat.le_add_right k acts.length)
    rw [hlate _ (hmax k)] at hx
    have := rnet_none (callAt_iff.1 hx) rfl (hs.lost i n x (callAt_iff.1 hx) h1 "")
    simp [RemoteRun.step, h2] at this
  · intro i n
    refine ⟨acts.length, fun m hm => ⟨fun x hx => ?_, fun l => by rw [htick m hm]; simp⟩⟩
    rw [hlate m hm] at hx
    have := hafter (m - acts.length)
    rw [show acts.length + (m - acts.length) = m by omega] at this
    rw [this, callMoves_later]
    exact hover i n x hx

set_option maxRecDepth 8000 in
/-- The hypotheses are met: by a run that has not returned, next to one whose runner never ends. -/
example : ∃ f a n0 ρ0, RemoteEndless f a ∧ (∀ n, Apart (remoteEngineMoves (firstMoves a n))) ∧
    (∀ n, RemoteEngineHooksKeepJobs (firstMoves a n)) ∧ (f n0).sys.runs[0]? = some ρ0 ∧ (∀ res, ρ0.pc ≠ .returned res) ∧
    UniqueJobs ρ0.wf ∧ OwnIds ρ0.wf ∧ DepsDefined ρ0.wf ∧ Acyclic ρ0.wf ∧ ρ0.wf.jobs ≠ [] ∧
    WeaklyFair RemoteEngine.step f a (remoteMainOf 0) ∧ (∀ i, WeaklyFair RemoteEngine.step f a (remoteJobOf 0 i)) ∧
    (∀ i, StronglyFair RemoteEngine.step f a (remoteRecvOf 0 i)) ∧ (∀ i n, WeaklyFair RemoteEngine.step f a (callOf 0 i n)) ∧
    BreaksNoticed f 0 ∧ ServersEnd f a 0 := by
  obtain ⟨f, a, h1, h2, h3, h4, h5, h6, h7, h8, h9, h10⟩ := remote_idle_forever (acts := RemoteEngineEx.two)
    (E := RemoteEngineEx.after RemoteEngineEx.two) rfl RemoteEngineEx.apart_two RemoteEngineEx.keeps_two RemoteEngineEx.stuck_two (by
      intro i n x hx
      cases i with
      | zero =>
        cases n with
        | zero => exact .inl (by rw [show runnerResult (callMoves 0 0 0 RemoteEngineEx.two) = some (.failed 3) from rfl]; simp)
        | succ n =>
          obtain ⟨y, hy⟩ : ∃ y, (RemoteEngineEx.after RemoteEngineEx.two).calls 0 0 = [y] := ⟨_, rfl⟩
          rw [callAt, hy] at hx
          simp at hx
      | succ i =>
        rw [callAt, show (RemoteEngineEx.after RemoteEngineEx.two).calls 0 (i + 1) = [] from rfl] at hx
        simp at hx)
  have hf : f 1 = RemoteEngineEx.after (RemoteEngineEx.two.take 1) := by
    have := h10 1
    unfold RemoteEngineReach at this
    simp only [RemoteEngineEx.after, this, Option.getD_some]
  refine ⟨f, a, 1, { wf := SystemEx.single "v" }, h1, h2, h3, by rw [hf]; rfl, by simp, List.nodup_singleton "a", ⟨?_, ?_⟩, ?_,
    SystemEx.single_acyclic "v", by decide, h4, h5, h6, h7, h8, h9⟩
  · intro k j k' j' h h' _
    have e : ∀ k j, (k, j) ∈ (SystemEx.single "v").jobs → k = "a" := by
      intro k j h; simp [SystemEx.single] at h; exact h.1
    exact (e k j h).trans (e k' j' h').symm
  · intro k j h s hs
    have : (k, j) ∈ (SystemEx.single "v").jobs := h
    simp [SystemEx.single] at this
    obtain ⟨rfl, rfl⟩ := this
    simp at hs
    subst hs
    rfl
  · intro k j h d hd
    have : (k, j) ∈ (SystemEx.single "v").jobs := h
    simp [SystemEx.single] at this
    obtain ⟨rfl, rfl⟩ := this
    simp at hd

end AstroRun
