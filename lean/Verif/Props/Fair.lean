import Verif.Lemmas.Fair
import Verif.Props.SystemLive

/-! # C112: every fair execution brings every run to its return -/

namespace AstroRun
open Spec

namespace FairLem

theorem endless_reach {f : Nat → Sys} {a : Nat → SysAct} (h : Endless f a) (n : Nat) : SysReach (firstMoves a n) (f n) := by
  induction n with
  | zero => simp [SysReach, firstMoves, runs, h.start]
  | succ n ih =>
    have : firstMoves a (n + 1) = firstMoves a n ++ [a n] := by simp [firstMoves, List.range_succ]
    rw [this]
    exact runs_snoc.2 ⟨f n, ih, h.moves n⟩

/-- What any move does to run `r`. -/
theorem step_far {M M' : Sys} {x : SysAct} {r : Nat} {ρ : SysRun} (hok : RunOk ρ) (hr : M.runs[r]? = some ρ) (hs : M.step x = some M') :
    ∃ ρ', M'.runs[r]? = some ρ' ∧ ρ'.wf = ρ.wf ∧
      (LexLt (far ρ') (far ρ) ∨
        (far ρ' = far ρ ∧ ¬ mainOf r x ∧ ρ'.pc = ρ.pc ∧ ρ'.chan = ρ.chan ∧ ∀ (j : Nat) (t : SysTask), ρ.tasks[j]? = some t →
          ∃ t', ρ'.tasks[j]? = some t' ∧ ((¬ (∃ b, x = .task r j b) ∧ t' = t) ∨
            ∃ b g', x = .task r j b ∧ Sys.taskStep M.mgr ρ M.now j t b = some (g', ρ') ∧
              ((t'.pc = t.pc ∧ t'.rest = t.rest ∧ ¬ isWork b) ∨ (Cycle t.pc ∧ Cycle t'.pc))))) := by
  have hlen := (List.getElem?_eq_some_iff.1 hr).1
  have keep : ρ.wf = ρ.wf ∧ ((¬ mainOf r x ∧ ∀ j, ¬ ∃ b, x = .task r j b) → (far ρ = far ρ ∧ ¬ mainOf r x ∧ ρ.pc = ρ.pc ∧ ρ.chan = ρ.chan ∧
      ∀ (j : Nat) (t : SysTask), ρ.tasks[j]? = some t →
          ∃ t', ρ.tasks[j]? = some t' ∧ ((¬ (∃ b, x = .task r j b) ∧ t' = t) ∨
            ∃ b g', x = .task r j b ∧ Sys.taskStep M.mgr ρ M.now j t b = some (g', ρ) ∧
              ((t'.pc = t.pc ∧ t'.rest = t.rest ∧ ¬ isWork b) ∨ (Cycle t.pc ∧ Cycle t'.pc))))) :=
    ⟨rfl, fun ⟨h1, h2⟩ => ⟨rfl, h1, rfl, rfl, fun j t ht => ⟨t, ht, .inl ⟨h2 j, rfl⟩⟩⟩⟩
  rcases sys_step_cases hs with ⟨wf, rfl, rfl⟩ | ⟨r', b, ρ₁, ρ', rfl, h1, h2, rfl⟩ | ⟨r', i, b, ρ₁, t, g', ρ', rfl, h1, h2, h3, rfl⟩ |
    ⟨n, rfl, rfl⟩ | ⟨j, y, rfl, rfl⟩
  · exact ⟨ρ, by simp only; rw [List.getElem?_append_left hlen]; exact hr, rfl, .inr (keep.2 ⟨by rintro ⟨_, h⟩; simp at h, by simp⟩)⟩
  · by_cases he : r' = r
    · subst he
      rw [hr] at h1; cases h1
      refine ⟨ρ', by simp [hlen], (hok.main h2).2, .inl (measure_step (absRun_main ranked_new h2))⟩
    · refine ⟨ρ, by simp [List.getElem?_set, he, hr], rfl, .inr (keep.2 ⟨?_, by simp⟩)⟩
      rintro ⟨_, h⟩; simp only [SysAct.main.injEq] at h; exact he h.1
  · by_cases he : r' = r
    · subst he
      rw [hr] at h1; cases h1
      refine ⟨ρ', by simp [hlen], ?_⟩
      have hfar := task_far (hok.tasks i t h2).1 h2 h3
      obtain ⟨_, _, _, _, ⟨hwf, _⟩, _⟩ := taskStep_frame h3
      refine ⟨hwf, hfar.imp_right ?_⟩
      rintro ⟨q1, q2, q3, q4, t', q5, q6⟩
      refine ⟨q1, by rintro ⟨_, h⟩; simp at h, q3, q4, ?_⟩
      intro j u hu
      have hi := (List.getElem?_eq_some_iff.1 h2).1
      by_cases hj : i = j
      · subst hj
        rw [h2] at hu; cases hu
        refine ⟨t', by rw [q5]; simp [hi], .inr ⟨b, g', rfl, h3, ?_⟩⟩
        rcases q6 with ⟨a1, a2, a3⟩ | h
        · refine .inl ⟨a1, a2, ?_⟩
          rcases a3 with ⟨l, rfl⟩ | ⟨x, rfl⟩ <;> exact id
        · exact .inr h
      · refine ⟨u, by rw [q5, List.getElem?_set, if_neg hj]; exact hu, .inl ⟨?_, rfl⟩⟩
        rintro ⟨_, h⟩; simp only [SysAct.task.injEq] at h; exact hj h.2.1
    · refine ⟨ρ, by simp [List.getElem?_set, he, hr], rfl, .inr (keep.2 ⟨by rintro ⟨_, h⟩; simp at h, ?_⟩)⟩
      rintro j ⟨_, h⟩; simp only [SysAct.task.injEq] at h; exact he h.1
  · exact ⟨ρ, hr, rfl, .inr (keep.2 ⟨by rintro ⟨_, h⟩; simp at h, by simp⟩)⟩
  · exact ⟨ρ, hr, rfl, .inr (keep.2 ⟨by rintro ⟨_, h⟩; simp at h, by simp⟩)⟩

theorem lexLt_irrefl (x : Nat × Nat × Nat × Nat × Nat) : ¬ LexLt x x := by
  induction x using lexLt_wf.induction with
  | _ x ih => exact fun h => ih x h h

/-- A sequence that only goes down stops. -/
theorem stabilise (u : Nat → Nat × Nat × Nat × Nat × Nat) (h : ∀ n, LexLt (u (n + 1)) (u n) ∨ u (n + 1) = u n) :
    ∃ N, ∀ n, N ≤ n → u n = u N := by
  have key : ∀ w k, u k = w → ∃ N, ∀ n, N ≤ n → u n = u N := by
    intro w
    induction w using lexLt_wf.induction with
    | _ w ih =>
    intro k hk
    by_cases hex : ∃ n, k ≤ n ∧ LexLt (u n) (u k)
    · obtain ⟨n, _, hn⟩ := hex
      exact ih (u n) (hk ▸ hn) n rfl
    · refine ⟨k, fun n hn => ?_⟩
      induction n with
      | zero => have : k = 0 := Nat.le_zero.1 hn; rw [this]
      | succ n ihn =>
        rcases Nat.lt_or_ge n k with hlt | hge
        · have : n + 1 = k := by omega
          rw [this]
        · rcases h n with hd | he
          · rw [ihn hge] at hd
            exact absurd ⟨n + 1, hn, hd⟩ hex
          · rw [he, ihn hge]
  exact key _ 0 rfl

/-- A number cannot go down again and again. -/
theorem no_descent (d : Nat → Nat) (n : Nat) (h1 : ∀ m, n ≤ m → d (m + 1) ≤ d m) (h2 : ∀ m, n ≤ m → ∃ k, m ≤ k ∧ d (k + 1) < d k) : False := by
  have mono : ∀ m k, n ≤ m → m ≤ k → d k ≤ d m := by
    intro m k hm hk
    induction k with
    | zero => have : m = 0 := Nat.le_zero.1 hk; rw [this]
    | succ k ih =>
      rcases Nat.lt_or_ge k m with h | h
      · have : m = k + 1 := by omega
        rw [this]
      · exact Nat.le_trans (h1 k (Nat.le_trans hm h)) (ih h)
  have key : ∀ v m, n ≤ m → d m ≤ v → False := by
    intro v
    induction v with
    | zero =>
      intro m hm hv
      obtain ⟨k, hk, hlt⟩ := h2 m hm
      have := mono m k hm hk
      omega
    | succ v ih =>
      intro m hm hv
      obtain ⟨k, hk, hlt⟩ := h2 m hm
      have := mono m k hm hk
      exact ih (k + 1) (by omega) (by omega)
  exact key (d n) n (Nat.le_refl _) (Nat.le_refl _)

theorem main_enabled (ρ : SysRun) (now : Time) (hr : ∀ res, ρ.pc ≠ .returned res) (h : ¬ (ρ.pc = .loop ∧ ρ.chan = [])) :
    ∃ b ρ', ρ.main now b = some ρ' := by
  cases hpc : ρ.pc with
  | returned r => exact absurd hpc (hr r)
  | init =>
    refine ⟨.check true, ?_⟩
    simp only [SysRun.main, hpc]
    split <;> exact ⟨_, rfl⟩
  | setup rest => exact ⟨.spawn, by cases rest <;> simp only [SysRun.main, hpc] <;> exact ⟨_, rfl⟩⟩
  | loop =>
    cases hch : ρ.chan with
    | nil => exact absurd ⟨hpc, hch⟩ h
    | cons msg chan => exact ⟨.recv, _, by simp only [SysRun.main, hpc, hch]; rfl⟩
  | finishing t => exact ⟨.announce, _, by simp only [SysRun.main, hpc]; rfl⟩
  | completing t => exact ⟨.complete, _, by simp only [SysRun.main, hpc]; rfl⟩

/-- Outside the loop that waits for the runner, only the task itself can move it. -/
theorem coop_work {t : SysTask} {b : TaskAct} (h : coopAct t = some b) (hc : ¬ IsSelect t.pc) : isWork b := by
  unfold coopAct at h
  cases hpc : t.pc with
  | next => cases hr : t.rest <;> simp [hpc, hr] at h <;> subst h <;> trivial
  | select s t0 d ref => rw [hpc] at hc; exact absurd trivial hc
  | _ => simp [hpc] at h <;> subst h <;> trivial

theorem coop_same {t t' : SysTask} (h1 : t'.pc = t.pc) (h2 : t'.rest = t.rest) (hc : ¬ Cycle t.pc) : coopAct t' = coopAct t := by
  unfold coopAct
  rw [h1, h2]
  cases hpc : t.pc with
  | select s t0 d ref => rw [hpc] at hc; exact absurd trivial hc
  | _ => rfl

end FairLem

open FairLem

/-- **C112** In every endless execution of an engine, whatever the users and the other workflows do: if the main task and the job tasks of a
run are not starved, the `select!` of a step does not ignore its stream forever, and the runner ends the steps it is given, then
the run returns (its dependencies forming no cycle). -/
theorem C112_fair_runs_return (f : Nat → Sys) (a : Nat → SysAct) (hE : Endless f a) (hap : ∀ n, Apart (firstMoves a n))
    (hk : ∀ n, HooksKeepJobs (firstMoves a n)) (r n0 : Nat) (ρ0 : SysRun) (hr0 : (f n0).runs[r]? = some ρ0) (hu : UniqueJobs ρ0.wf)
    (ho : OwnIds ρ0.wf) (hd : DepsDefined ρ0.wf) (hac : Acyclic ρ0.wf) (hne : ρ0.wf.jobs ≠ [])
    (hmain : WeaklyFair Sys.step f a (mainOf r)) (hwork : ∀ i, WeaklyFair Sys.step f a (workOf r i)) (hrecv : ∀ i, StronglyFair Sys.step f a (recvOf r i))
    (hrun : RunnerEnds f a r) : ∃ n ρ res, n0 ≤ n ∧ (f n).runs[r]? = some ρ ∧ ρ.pc = .returned res := by
  apply Classical.byContradiction
  intro hnever
  have hok : ∀ n ρ, (f n).runs[r]? = some ρ → RunOk ρ := fun n ρ h => (engineOk_reach (hap n) (endless_reach hE n)).runs r ρ h
  -- the run from `n0` on
  have hex : ∀ n, ∃ ρ, (f (n0 + n)).runs[r]? = some ρ ∧ ρ.wf = ρ0.wf := by
    intro n
    induction n with
    | zero => exact ⟨ρ0, hr0, rfl⟩
    | succ n ih =>
      obtain ⟨ρ, h1, h2⟩ := ih
      obtain ⟨ρ', h3, h4, _⟩ := step_far (hok _ ρ h1) h1 (hE.moves (n0 + n))
      exact ⟨ρ', h3, h4.trans h2⟩
  choose R hR hwf using hex
  obtain ⟨N, hN⟩ := stabilise (fun n => far (R n)) (by
    intro n
    obtain ⟨ρ', h3, _, h5⟩ := step_far (hok _ _ (hR n)) (hR n) (hE.moves (n0 + n))
    have : R (n + 1) = ρ' := by
      have := hR (n + 1)
      rw [show n0 + (n + 1) = n0 + n + 1 from rfl, h3] at this
      exact (Option.some.inj this).symm
    rw [this]
    exact h5.imp_right fun h => h.1)
  -- from here on nothing comes nearer to the return
  let K := n0 + N
  let Q : Nat → SysRun := fun n => R (N + n)
  have hQ : ∀ n, (f (K + n)).runs[r]? = some (Q n) := by
    intro n
    have := hR (N + n)
    rwa [← Nat.add_assoc] at this
  have hnr : ∀ n res, (Q n).pc ≠ .returned res := fun n res h => hnever ⟨K + n, Q n, res, by omega, hQ n, h⟩
  have hneutral : ∀ n, ¬ mainOf r (a (K + n)) ∧ (Q (n + 1)).pc = (Q n).pc ∧ (Q (n + 1)).chan = (Q n).chan ∧
      ∀ (j : Nat) (t : SysTask), (Q n).tasks[j]? = some t →
          ∃ t', (Q (n + 1)).tasks[j]? = some t' ∧ ((¬ (∃ b, a (K + n) = .task r j b) ∧ t' = t) ∨
            ∃ b g', a (K + n) = .task r j b ∧ Sys.taskStep (f (K + n)).mgr (Q n) (f (K + n)).now j t b = some (g', Q (n + 1)) ∧
              ((t'.pc = t.pc ∧ t'.rest = t.rest ∧ ¬ isWork b) ∨ (Cycle t.pc ∧ Cycle t'.pc))) := by
    intro n
    obtain ⟨ρ', h3, _, h5⟩ := step_far (hok _ _ (hQ n)) (hQ n) (hE.moves (K + n))
    have he : Q (n + 1) = ρ' := by
      have := hQ (n + 1)
      rw [show K + (n + 1) = K + n + 1 from rfl, h3] at this
      exact (Option.some.inj this).symm
    rw [he]
    rcases h5 with h5 | ⟨_, h6, h7, h8, h9⟩
    · exfalso
      have e1 : far (Q (n + 1)) = far (Q n) := (hN (N + (n + 1)) (by omega)).trans (hN (N + n) (by omega)).symm
      rw [← he, e1] at h5
      exact lexLt_irrefl _ h5
    · exact ⟨h6, h7, h8, h9⟩
  have hpc : ∀ n, (Q n).pc = (Q 0).pc ∧ (Q n).chan = (Q 0).chan := by
    intro n
    induction n with
    | zero => exact ⟨rfl, rfl⟩
    | succ n ih => exact ⟨(hneutral n).2.1.trans ih.1, (hneutral n).2.2.1.trans ih.2⟩
  -- the main task is waiting
  have hwait : (Q 0).pc = .loop ∧ (Q 0).chan = [] := by
    apply Classical.byContradiction
    intro hno
    obtain ⟨m, hm, hc⟩ := hmain ⟨K, fun m hm => by
      obtain ⟨n, rfl⟩ := Nat.exists_eq_add_of_le hm
      obtain ⟨b, ρ', hb⟩ := main_enabled (Q n) (f (K + n)).now (hnr n) (by rw [(hpc n).1, (hpc n).2]; exact hno)
      exact ⟨.main r b, ⟨b, rfl⟩, by simp [Sys.step, hQ n, hb]⟩⟩ K
    obtain ⟨n, rfl⟩ := Nat.exists_eq_add_of_le hm
    exact (hneutral n).1 hc
  -- some task is not done
  obtain ⟨i, t0, b0, ht0, hb0⟩ : ∃ (i : Nat) (t : SysTask) (b : TaskAct), (Q 0).tasks[i]? = some t ∧ coopAct t = some b := by
    apply Classical.byContradiction
    intro hno
    have e := hwf N
    refine stuck_returned (endless_reach hE K) (hap K) (hk K) (r := r) (ρ := Q 0) (hQ 0) (e ▸ hu) (e ▸ ho) (e ▸ hd) (e ▸ hac) (e ▸ hne)
      hwait.1 hwait.2 ?_
    intro i t ht
    cases hb : coopAct t with
    | none => rfl
    | some b => exact absurd ⟨i, t, b, ht, hb⟩ hno
  have hexT : ∀ n, ∃ t, (Q n).tasks[i]? = some t := by
    intro n
    induction n with
    | zero => exact ⟨t0, ht0⟩
    | succ n ih =>
      obtain ⟨t, ht⟩ := ih
      obtain ⟨t', ht', _⟩ := (hneutral n).2.2.2 i t ht
      exact ⟨t', ht'⟩
  choose T hT using hexT
  have hT0 : T 0 = t0 := by have := hT 0; rw [ht0] at this; exact (Option.some.inj this).symm
  have hsys : ∀ n, SysOk (T n) := fun n => ((hok _ _ (hQ n)).tasks i (T n) (hT n)).1
  have hstep : ∀ n, (¬ (∃ b, a (K + n) = .task r i b) ∧ T (n + 1) = T n) ∨
      ∃ b g', a (K + n) = .task r i b ∧ Sys.taskStep (f (K + n)).mgr (Q n) (f (K + n)).now i (T n) b = some (g', Q (n + 1)) ∧
        (((T (n + 1)).pc = (T n).pc ∧ (T (n + 1)).rest = (T n).rest ∧ ¬ isWork b) ∨ (Cycle (T n).pc ∧ Cycle (T (n + 1)).pc)) := by
    intro n
    obtain ⟨t', h1, h2⟩ := (hneutral n).2.2.2 i (T n) (hT n)
    have : T (n + 1) = t' := by have := hT (n + 1); rw [h1] at this; exact (Option.some.inj this).symm
    rw [this]; exact h2
  -- cooperative moves are possible
  have hposs : ∀ n b, coopAct (T n) = some b → (f (K + n)).step (.task r i b) ≠ none := by
    intro n b hb
    obtain ⟨g', ρ', hm, _⟩ := coop_move (g := (f (K + n)).mgr) (now := (f (K + n)).now) (hsys n) (hT n) hb
      (fun _ _ => by rw [(hpc n).2, hwait.2]; decide)
    simp [Sys.step, hQ n, hT n, hm]
  by_cases hcyc : Cycle (T 0).pc
  · -- the task waits for the runner
    have hcy : ∀ n, Cycle (T n).pc := by
      intro n
      induction n with
      | zero => exact hcyc
      | succ n ih =>
        rcases hstep n with ⟨_, h⟩ | ⟨b, g', _, _, h⟩
        · rw [h]; exact ih
        · rcases h with h | h
          · rw [h.1]; exact ih
          · exact h.2
    have hact : ∀ n, (T n).pc.runnerActive = true := by
      intro n
      have := hcy n
      unfold Cycle at this
      split at this
      · rename_i h; rw [h]; rfl
      · rename_i h; rw [h]; rfl
      · rename_i h; rw [h]; rfl
      · exact absurd this id
    have now_ : ∀ n t, TaskNow f r i (K + n) t ↔ t = T n := by
      intro n t
      constructor
      · rintro ⟨ρ, h1, h2⟩
        rw [hQ n] at h1; cases h1
        rw [hT n] at h2; exact (Option.some.inj h2).symm
      · rintro rfl; exact ⟨Q n, hQ n, hT n⟩
    obtain ⟨m1, hm1, hres, hnopush⟩ := hrun i K (by
      intro m t hm ht
      obtain ⟨n, rfl⟩ := Nat.exists_eq_add_of_le hm
      rw [(now_ n t).1 ht]; exact hact n)
    obtain ⟨n1, rfl⟩ := Nat.exists_eq_add_of_le hm1
    have hres1 := hres (T n1) ((now_ n1 _).2 rfl)
    have hmv : ∀ n b g', Sys.taskStep (f (K + n)).mgr (Q n) (f (K + n)).now i (T n) b = some (g', Q (n + 1)) →
        ((T n).stream.result ≠ none → (T (n + 1)).stream.result ≠ none) ∧
        ((∀ l, b ≠ .push l) → (T (n + 1)).stream.logs.length - (T (n + 1)).stream.index ≤ (T n).stream.logs.length - (T n).stream.index) ∧
        (b = .recv → (T (n + 1)).stream.logs.length - (T (n + 1)).stream.index < (T n).stream.logs.length - (T n).stream.index) ∧
        (¬ IsSelect (T n).pc → (isWork b → dist (T (n + 1)).pc < dist (T n).pc) ∧ (¬ isWork b → (T (n + 1)).pc = (T n).pc)) :=
      fun n b g' h => cycle_move (hsys n) (List.getElem?_eq_some_iff.1 (hT n)).1 h (hT (n + 1)) (hcy n) (hcy (n + 1))
    have hended : ∀ n, n1 ≤ n → (T n).stream.result ≠ none := by
      intro n hn
      induction n with
      | zero => have : n1 = 0 := Nat.le_zero.1 hn; rw [this] at hres1; exact hres1
      | succ n ih =>
        rcases Nat.lt_or_ge n n1 with h | h
        · have : n1 = n + 1 := by omega
          rw [this] at hres1; exact hres1
        · rcases hstep n with ⟨_, h'⟩ | ⟨b, g', _, h', _⟩
          · rw [h']; exact ih h
          · exact (hmv n b g' h').1 (ih h)
    -- it comes to its `select!` again and again
    have hsel : ∀ n, ∃ m, n ≤ m ∧ IsSelect (T m).pc := by
      intro n
      apply Classical.byContradiction
      intro hno
      have hno : ∀ m, n ≤ m → ¬ IsSelect (T m).pc := fun m hm h => hno ⟨m, hm, h⟩
      have hoften := hwork i ⟨K + n, fun m hm => by
        obtain ⟨k, rfl⟩ := Nat.exists_eq_add_of_le (show K ≤ m by omega)
        have hns := hno k (by omega)
        cases hb : coopAct (T k) with
        | none =>
          exfalso
          have := hcy k
          rcases coopAct_none hb with ⟨x, h⟩ | ⟨x, h⟩ <;> rw [h] at this <;> exact this
        | some b => exact ⟨.task r i b, workOf_iff.2 ⟨b, rfl, coop_work hb hns⟩, hposs k b hb⟩⟩
      refine no_descent (fun k => dist (T k).pc) n ?_ ?_
      · intro m hm
        rcases hstep m with ⟨_, h⟩ | ⟨b, g', _, h, _⟩
        · simp [h]
        · have := (hmv m b g' h).2.2.2 (hno m hm)
          by_cases hw : isWork b
          · exact Nat.le_of_lt (this.1 hw)
          · simp [this.2 hw]
      · intro m hm
        obtain ⟨k, hk1, hk2⟩ := hoften (K + m)
        obtain ⟨k, rfl⟩ := Nat.exists_eq_add_of_le (show K ≤ k by omega)
        obtain ⟨b, hb, hw⟩ := workOf_iff.1 hk2
        refine ⟨k, by omega, ?_⟩
        rcases hstep k with ⟨h, _⟩ | ⟨b', g', hb', h, _⟩
        · exact absurd ⟨b, hb⟩ h
        · rw [hb] at hb'
          simp only [SysAct.task.injEq, true_and] at hb'
          subst hb'
          exact ((hmv k b g' h).2.2.2 (hno k (by omega))).1 hw
    -- and takes from the stream again and again, which has an end
    have hoften := hrecv i (by
      intro n
      obtain ⟨m, hm, hs⟩ := hsel (n1 + n)
      refine ⟨K + m, by omega, .task r i .recv, rfl, hposs m _ ?_⟩
      have hp := poll_ended (hended m (by omega))
      unfold coopAct
      cases hpcm : (T m).pc with
      | select s t0 d ref => cases hq : ((T m).stream.poll 0).2 <;> simp_all
      | _ => rw [hpcm] at hs; exact absurd hs id)
    refine no_descent (fun k => (T k).stream.logs.length - (T k).stream.index) n1 ?_ ?_
    · intro m hm
      rcases hstep m with ⟨_, h⟩ | ⟨b, g', hb, h, _⟩
      · simp [h]
      · refine (hmv m b g' h).2.1 ?_
        rintro l rfl
        exact hnopush (K + m) l (by omega) hb
    · intro m hm
      obtain ⟨k, hk1, hk2⟩ := hoften (K + m)
      obtain ⟨k, rfl⟩ := Nat.exists_eq_add_of_le (show K ≤ k by omega)
      refine ⟨k, by omega, ?_⟩
      rcases hstep k with ⟨h, _⟩ | ⟨b', g', hb', h, _⟩
      · exact absurd ⟨_, hk2⟩ h
      · rw [show a (K + k) = _ from hk2] at hb'
        simp only [SysAct.task.injEq, true_and] at hb'
        subst hb'
        exact (hmv k .recv g' h).2.2.1 rfl
  · -- the task can move, and nobody else can move it
    have hsame : ∀ n, (T n).pc = (T 0).pc ∧ (T n).rest = (T 0).rest := by
      intro n
      induction n with
      | zero => exact ⟨rfl, rfl⟩
      | succ n ih =>
        rcases hstep n with ⟨_, h⟩ | ⟨b, g', _, _, h⟩
        · rw [h]; exact ih
        · rcases h with h | h
          · exact ⟨h.1.trans ih.1, h.2.1.trans ih.2⟩
          · exact absurd (ih.1 ▸ h.1) hcyc
    have hco : ∀ n, coopAct (T n) = some b0 := by
      intro n
      rw [coop_same (hsame n).1 (hsame n).2 hcyc, hT0]; exact hb0
    have hsel : ¬ IsSelect (T 0).pc := by
      intro h
      apply hcyc
      unfold IsSelect at h
      split at h
      · rename_i hp; rw [hp]; trivial
      · exact absurd h id
    obtain ⟨m, hm, hc⟩ := hwork i ⟨K, fun m hm => by
      obtain ⟨n, rfl⟩ := Nat.exists_eq_add_of_le hm
      exact ⟨.task r i b0, workOf_iff.2 ⟨b0, rfl, coop_work (hco 0) hsel⟩, hposs n b0 (hco n)⟩⟩ K
    obtain ⟨n, rfl⟩ := Nat.exists_eq_add_of_le hm
    obtain ⟨b, hb, hw⟩ := workOf_iff.1 hc
    rcases hstep n with ⟨h, _⟩ | ⟨b', g', hb', _, h⟩
    · exact h ⟨b, hb⟩
    · rw [hb] at hb'
      simp only [SysAct.task.injEq, true_and] at hb'
      subst hb'
      rcases h with h | h
      · exact h.2.2 hw
      · exact hcyc ((hsame n).1 ▸ h.1)

/-- A task that has nothing left to do cannot move. -/
theorem FairLem.done_stuck {g : SigMgr} {ρ : SysRun} {now : Time} {i : Nat} {t : SysTask} (h : coopAct t = none) (b : TaskAct) :
    Sys.taskStep g ρ now i t b = none := by
  rcases coopAct_none h with ⟨x, hx⟩ | ⟨x, hx⟩ <;>
    cases b <;> simp [Sys.taskStep, SysTask.step, hx, SysPc.runnerActive]

/-- **C112** Such executions exist, whatever has happened before: every schedule can be continued to an endless execution that treats
a given run fairly and whose runner ends its steps. -/
theorem C112_fair_futures (acts : List SysAct) (M : Sys) (h : SysReach acts M) (ha : Apart acts) (hk : HooksKeepJobs acts) (r : Nat)
    (ρ : SysRun) (hr : M.runs[r]? = some ρ) (hu : UniqueJobs ρ.wf) (ho : OwnIds ρ.wf) (hd : DepsDefined ρ.wf) (hac : Acyclic ρ.wf)
    (hne : ρ.wf.jobs ≠ []) :
    ∃ f a, Endless f a ∧ firstMoves a acts.length = acts ∧ f acts.length = M ∧ (∀ n, Apart (firstMoves a n)) ∧
      (∀ n, HooksKeepJobs (firstMoves a n)) ∧ WeaklyFair Sys.step f a (mainOf r) ∧ (∀ i, WeaklyFair Sys.step f a (workOf r i)) ∧
      (∀ i, StronglyFair Sys.step f a (recvOf r i)) ∧ RunnerEnds f a r := by
  obtain ⟨more, M', ρ', res, _, hM', ha', hk', hr', hres, hdone⟩ := can_settle _ h ha hk hr rfl hu ho hd hac hne
  let all := acts ++ more
  let a : Nat → SysAct := fun n => all.getD n (.tick 0)
  let f : Nat → Sys := fun n => (runs Sys.step {} (all.take n)).getD {}
  have hpre : ∀ n, runs Sys.step {} (all.take n) = some (f n) := by
    intro n
    have : runs Sys.step {} (all.take n ++ all.drop n) = some M' := by rw [List.take_append_drop]; exact hM'
    obtain ⟨s0, h0, _⟩ := runs_split this
    simp [f, h0]
  have hlate : ∀ n, all.length ≤ n → f n = M' := by
    intro n hn
    have := hpre n
    rw [List.take_of_length_le hn] at this
    exact Option.some.inj (this.symm.trans hM')
  have htick : ∀ n, all.length ≤ n → a n = .tick 0 := by
    intro n hn
    simp [a, List.getD_eq_getElem?_getD, List.getElem?_eq_none hn]
  have hE : Endless f a := by
    refine ⟨by simp [f, runs], fun n => ?_⟩
    rcases Nat.lt_or_ge n all.length with hn | hn
    · have h1 := hpre (n + 1)
      rw [List.take_succ_eq_append_getElem hn] at h1
      obtain ⟨s0, h2, h3⟩ := runs_snoc.1 h1
      rw [hpre n] at h2
      cases h2
      have : a n = all[n] := by simp [a, List.getD_eq_getElem?_getD, List.getElem?_eq_getElem hn]
      rw [this]; exact h3
    · rw [hlate n hn, hlate (n + 1) (by omega), htick n hn]
      simp [Sys.step]
  have hfirst : ∀ n, n ≤ all.length → firstMoves a n = all.take n := by
    intro n hn
    refine List.ext_getElem (by simp [firstMoves]; omega) ?_
    intro k h1 h2
    have hk : k < n := by simpa [firstMoves] using h1
    have hk' : k < all.length := by omega
    simp [firstMoves, a, List.getD_eq_getElem?_getD, List.getElem?_eq_getElem hk']
  have hstay : ∀ n, Apart (firstMoves a n) ∧ HooksKeepJobs (firstMoves a n) := by
    intro n
    induction n with
    | zero =>
      have e : firstMoves a 0 = [] := rfl
      rw [e]
      exact ⟨⟨by simp [started], by simp [started], by simp⟩, by intro pre r i b s post he; simp at he⟩
    | succ n ih =>
      have e : firstMoves a (n + 1) = firstMoves a n ++ [a n] := by simp [firstMoves, List.range_succ]
      rcases Nat.lt_or_ge n all.length with hn | hn
      · have e2 : firstMoves a (n + 1) ++ all.drop (n + 1) = acts ++ more := by
          rw [hfirst _ hn, List.take_append_drop]
        refine ⟨Apart.prefix (e2 ▸ ha'), ?_⟩
        intro pre r i b s post he
        exact hk' pre r i b s (post ++ all.drop (n + 1)) (by rw [← e2, he]; simp)
      · rw [e, htick n hn]
        exact ⟨ih.1.snoc (by simp) (by simp), ih.2.snoc (endless_reach hE n) (by simp)⟩
  have hstuck : ∀ n, all.length ≤ n → ∀ x, ofRun r x → (f n).step x = none := by
    intro n hn x hx
    rw [hlate n hn]
    cases x with
    | main r' b =>
      cases hx
      simp only [Sys.step, hr']
      cases b <;> simp [SysRun.main, hres]
    | task r' i b =>
      cases hx
      cases ht : ρ'.tasks[i]? with
      | none => simp [Sys.step, hr', ht]
      | some t => simp [Sys.step, hr', ht, FairLem.done_stuck (hdone i t ht)]
    | _ => exact absurd hx id
  have hnot : ∀ (c : SysAct → Prop), (∀ x, c x → ofRun r x) → ∀ n, all.length ≤ n → ¬ Possible Sys.step f c n := by
    rintro c hc n hn ⟨x, hx, h1⟩
    exact h1 (hstuck n hn x (hc x hx))
  have hmax : ∀ n, all.length ≤ n + all.length := by omega
  refine ⟨f, a, hE, ?_, ?_, fun n => (hstay n).1, fun n => (hstay n).2, ?_, ?_, ?_, ?_⟩
  · rw [hfirst _ (by simp [all])]
    simp [all]
  · have := hpre acts.length
    simp only [all, List.take_left] at this
    exact Option.some.inj (this.symm.trans h)
  · rintro ⟨n, hn⟩
    exact absurd (hn _ (Nat.le_add_right n all.length)) (hnot _ (by rintro x ⟨b, rfl⟩; rfl) _ (hmax n))
  · rintro i ⟨n, hn⟩
    exact absurd (hn _ (Nat.le_add_right n all.length)) (hnot _ (by rintro x ⟨b, rfl, _⟩; rfl) _ (hmax n))
  · intro i hi
    obtain ⟨m, hm, hp⟩ := hi all.length
    exact absurd hp (hnot _ (by rintro x rfl; rfl) _ hm)
  · intro i n hact
    refine ⟨n + all.length, by omega, ?_, ?_⟩
    · rintro t ⟨ρ₁, h1, h2⟩
      have hx := hact (n + all.length) t (by omega) ⟨ρ₁, h1, h2⟩
      rw [hlate _ (hmax n), hr'] at h1
      cases h1
      rcases coopAct_none (hdone i t h2) with ⟨x, h3⟩ | ⟨x, h3⟩ <;> rw [h3] at hx <;> simp [SysPc.runnerActive] at hx
    · intro k l hk
      rw [htick k (by omega)]
      simp

/-- The hypotheses of both theorems are met: by a run that has not returned. -/
example : ∃ f a n0 ρ0, Endless f a ∧ (∀ n, Apart (firstMoves a n)) ∧ (∀ n, HooksKeepJobs (firstMoves a n)) ∧ (f n0).runs[1]? = some ρ0 ∧
    (∀ res, ρ0.pc ≠ .returned res) ∧ UniqueJobs ρ0.wf ∧ OwnIds ρ0.wf ∧ DepsDefined ρ0.wf ∧ Acyclic ρ0.wf ∧ ρ0.wf.jobs ≠ [] ∧
    WeaklyFair Sys.step f a (mainOf 1) ∧ (∀ i, WeaklyFair Sys.step f a (workOf 1 i)) ∧ (∀ i, StronglyFair Sys.step f a (recvOf 1 i)) ∧ RunnerEnds f a 1 := by
  obtain ⟨M, ρ, h, ha, hk, hr, hnr, hu, ho, hd, hac, hne⟩ := SystemEx.half_meets
  obtain ⟨f, a, h1, _, h3, h4, h5, h6, h7, h8, h9⟩ := C112_fair_futures _ M h ha hk 1 ρ hr hu ho hd hac hne
  exact ⟨f, a, _, ρ, h1, h4, h5, h3 ▸ hr, fun res hres => by rw [eq_iff_iff] at hnr; exact hnr.1 ⟨res, hres⟩, hu, ho, hd, hac, hne, h6, h7, h8, h9⟩

end AstroRun
