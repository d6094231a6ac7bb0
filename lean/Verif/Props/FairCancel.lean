import Verif.Props.FairSilent
import Verif.Props.CancelAnswer
import Verif.Props.WorkflowTerm

/-! # C124: a cancelled step ends, whatever its process does -/

namespace AstroRun
open Spec

namespace CancelFairLem
open FairLem FairLocalLem SilentLem

theorem reading_cycle {pc : SysPc} (h : pc.reading = true) : Cycle pc := by
  unfold SysPc.reading at h
  split at h <;> first | exact trivial | cases h

/-- A job task that goes on reading a stream comes to its `select!` again and again. -/
theorem comes_to_select {f : Nat → Sys} {x : Nat → SysAct} (hE : Endless f x) {r i K : Nat}
    (hwork : WeaklyFair Sys.step f x (workOf r i)) (hread : ∀ k, K ≤ k → ∃ t, taskAt (f k) r i = some t ∧ t.pc.reading = true)
    (k : Nat) (hk : K ≤ k) : ∃ m t, k ≤ m ∧ taskAt (f m) r i = some t ∧ IsSelect t.pc := by
  apply Classical.byContradiction
  intro hno
  have hnos : ∀ m t, k ≤ m → taskAt (f m) r i = some t → ¬ IsSelect t.pc := fun m t hm ht hs => hno ⟨m, t, hm, ht, hs⟩
  have hex : ∀ n, ∃ t, taskAt (f (k + n)) r i = some t ∧ t.pc.reading = true := fun n => hread (k + n) (by omega)
  choose T hT hTr using hex
  have hmove : ∀ n, dist (T (n + 1)).pc ≤ dist (T n).pc ∧ (workOf r i (x (k + n)) → dist (T (n + 1)).pc < dist (T n).pc) := by
    intro n
    have hT' := hT (n + 1)
    rw [show k + (n + 1) = k + n + 1 from rfl] at hT'
    rcases task_between (hE.moves (k + n)) (hT n) with ⟨h, h'⟩ | ⟨b, hb⟩
    · rw [h] at hT'
      rw [← Option.some.inj hT']
      refine ⟨Nat.le_refl _, ?_⟩
      rintro hw
      obtain ⟨b, hb, _⟩ := workOf_iff.1 hw
      exact absurd hb (h' b)
    · have hs := hE.moves (k + n)
      rw [hb] at hs
      obtain ⟨ρ, t, t', hρ, h1, h2, _, g, ρ', h3, h4⟩ := task_act hs
      have e1 : t = T n := by rw [hT n] at h1; exact (Option.some.inj h1).symm
      have e2 : t' = T (n + 1) := by rw [h2] at hT'; exact Option.some.inj hT'
      subst e1 e2
      obtain ⟨ρ2, q1, q2⟩ := taskAt_some h1
      rw [hρ] at q1; cases q1
      have hlen := (List.getElem?_eq_some_iff.1 q2).1
      obtain ⟨_, _, _, h5⟩ := cycle_move (taskOk_reach (endless_reach hE _) hρ (List.mem_of_getElem? q2)) hlen h3 h4
        (reading_cycle (hTr n)) (reading_cycle (hTr (n + 1)))
      obtain ⟨h6, h7⟩ := h5 (hnos (k + n) _ (by omega) (hT n))
      rw [hb]
      by_cases hw : isWork b
      · exact ⟨Nat.le_of_lt (h6 hw), fun _ => h6 hw⟩
      · refine ⟨by rw [h7 hw], fun h => ?_⟩
        obtain ⟨b', e, h8⟩ := workOf_iff.1 h
        cases e
        exact absurd h8 hw
  refine no_descent (fun n => dist (T n).pc) 0 (fun n _ => (hmove n).1) fun n _ => ?_
  obtain ⟨m, hm, hw⟩ := hwork ⟨k, fun m hm => by
    obtain ⟨n, rfl⟩ := Nat.exists_eq_add_of_le hm
    obtain ⟨ρ, h1, h2⟩ := taskAt_some (hT n)
    have hr := hTr n
    have hs := hnos (k + n) _ (by omega) (hT n)
    cases hpc : (T n).pc with
    | handling s t0 ref =>
      exact ⟨.task r i .enter, workOf_iff.2 ⟨_, rfl, trivial⟩, by simp [Sys.step, h1, h2, Sys.taskStep, SysTask.step, hpc]⟩
    | emitting es k' =>
      exact ⟨.task r i .emit, workOf_iff.2 ⟨_, rfl, trivial⟩, by cases es <;> simp [Sys.step, h1, h2, Sys.taskStep, hpc]⟩
    | select s t0 d ref => rw [hpc] at hs; exact absurd trivial hs
    | _ => rw [hpc] at hr; cases hr⟩ (k + n)
  obtain ⟨n', rfl⟩ := Nat.exists_eq_add_of_le (show k ≤ m by omega)
  exact ⟨n', by omega, (hmove n').2 hw⟩

/-- A job task does not go on reading a stream that has ended. -/
theorem notices_the_end {f : Nat → Sys} {x : Nat → SysAct} (hE : Endless f x) {r i K : Nat}
    (hwork : WeaklyFair Sys.step f x (workOf r i)) (hrecv : StronglyFair Sys.step f x (recvOf r i))
    (hread : ∀ k, K ≤ k → ∃ t, taskAt (f k) r i = some t ∧ t.pc.reading = true ∧ t.stream.result ≠ none)
    (hno : ∀ k l, K ≤ k → x k ≠ .task r i (.push l)) : False := by
  have hex : ∀ n, ∃ t, taskAt (f (K + n)) r i = some t ∧ t.pc.reading = true ∧ t.stream.result ≠ none := fun n => hread (K + n) (by omega)
  choose T hT hTr hTe using hex
  have hmove : ∀ n, (T (n + 1)).stream.logs.length - (T (n + 1)).stream.index ≤ (T n).stream.logs.length - (T n).stream.index ∧
      (x (K + n) = .task r i .recv → (T (n + 1)).stream.logs.length - (T (n + 1)).stream.index < (T n).stream.logs.length - (T n).stream.index) := by
    intro n
    have hT' := hT (n + 1)
    rw [show K + (n + 1) = K + n + 1 from rfl] at hT'
    rcases task_between (hE.moves (K + n)) (hT n) with ⟨h, h'⟩ | ⟨b, hb⟩
    · rw [h] at hT'
      rw [← Option.some.inj hT']
      exact ⟨Nat.le_refl _, fun e => absurd e (h' _)⟩
    · have hs := hE.moves (K + n)
      rw [hb] at hs
      obtain ⟨ρ, t, t', hρ, h1, h2, _, g, ρ', h3, h4⟩ := task_act hs
      have e1 : t = T n := by rw [hT n] at h1; exact (Option.some.inj h1).symm
      have e2 : t' = T (n + 1) := by rw [h2] at hT'; exact Option.some.inj hT'
      subst e1 e2
      obtain ⟨ρ2, q1, q2⟩ := taskAt_some h1
      rw [hρ] at q1; cases q1
      have hlen := (List.getElem?_eq_some_iff.1 q2).1
      obtain ⟨_, h5, h6, _⟩ := cycle_move (taskOk_reach (endless_reach hE _) hρ (List.mem_of_getElem? q2)) hlen h3 h4
        (reading_cycle (hTr n)) (reading_cycle (hTr (n + 1)))
      refine ⟨h5 fun l e => hno (K + n) l (by omega) (by rw [hb, e]), fun e => h6 ?_⟩
      rw [hb] at e
      cases e
      rfl
  refine no_descent (fun n => (T n).stream.logs.length - (T n).stream.index) 0 (fun n _ => (hmove n).1) fun n _ => ?_
  obtain ⟨m, hm, hc⟩ := hrecv (fun j => by
    obtain ⟨m, t, hm, ht, hs⟩ := comes_to_select hE hwork (K := K) (fun k hk => by
      obtain ⟨t, h1, h2, _⟩ := hread k hk
      exact ⟨t, h1, h2⟩) (K + j) (by omega)
    refine ⟨m, by omega, .task r i .recv, rfl, ?_⟩
    obtain ⟨t', h1, h2, h3⟩ := hread m (by omega)
    rw [ht] at h1
    cases h1
    obtain ⟨ρ, q1, q2⟩ := taskAt_some ht
    unfold IsSelect at hs
    split at hs
    · rename_i s t0 d ref hpc
      have hp := poll_ended h3
      obtain ⟨res, hres⟩ := Option.ne_none_iff_exists'.1 h3
      simp only [Sys.step, q1, q2, Sys.taskStep, SysTask.step, hpc, bind, Option.bind_some]
      cases hpo : t.stream.poll 0 with
      | mk st' o =>
        rw [hpo] at hp
        cases o with
        | item l => simp
        | eos => simp [hres]
        | pending => exact absurd rfl hp
    · exact absurd hs id) (K + n)
  obtain ⟨n', rfl⟩ := Nat.exists_eq_add_of_le (show K ≤ m by omega)
  exact ⟨n', by omega, (hmove n').2 hc⟩

theorem answers_grow {M M' : Sys} {x : SysAct} (h : M.step x = some M') : ∀ y ∈ M.answers, y ∈ M'.answers := by
  intro y hy
  rcases sys_step_cases h with ⟨wf, rfl, rfl⟩ | ⟨n, b, ρ₁, ρ₂, rfl, hρ, hm, rfl⟩ |
    ⟨n, j, b, ρ, t, g', ρ', h1, hρ, htt, hmm, rfl⟩ | ⟨n, rfl, rfl⟩ | ⟨j, x, rfl, hx⟩
  · exact hy
  · exact hy
  · exact hy
  · exact hy
  · simp only [Sys.step] at h
    split at h <;> (cases h; exact List.mem_append_left _ hy)

theorem answers_stay {f : Nat → Sys} {x : Nat → SysAct} (hx : ∀ n, (f n).step (x n) = some (f (n + 1))) {m k : Nat} (h : m ≤ k) :
    ∀ y ∈ (f m).answers, y ∈ (f k).answers := by
  induction k with
  | zero => rw [Nat.le_zero.1 h]; exact fun _ h => h
  | succ k ih =>
    rcases Nat.lt_or_ge k m with h1 | h1
    · have : m = k + 1 := by omega
      rw [this]; exact fun _ h => h
    · exact fun y hy => answers_grow (hx k) y (ih h1 y hy)

/-- The branch of the `select!` that passes the job's signal on. -/
theorem passes_on {M M' : Sys} {r i : Nat} (h : M.step (.task r i .jobSignal) = some M') :
    ∃ t t' s t0 d ref, taskAt M r i = some t ∧ taskAt M' r i = some t' ∧ t.pc = .select s t0 d ref ∧ t'.pc = .handling s t0 ref ∧
      t'.sig.signal ≠ none ∧ t'.job = t.job := by
  obtain ⟨ρ, t, t', hρ, h1, h2, _, g, ρ', h3, h4⟩ := task_act h
  obtain ⟨ρ2, q1, q2⟩ := taskAt_some h1
  rw [hρ] at q1; cases q1
  have hlen := (List.getElem?_eq_some_iff.1 q2).1
  simp only [Sys.taskStep] at h3
  split at h3
  · rename_i s t0 d ref hpc
    split at h3
    · split at h3
      · simp only [Option.some.injEq, Prod.mk.injEq] at h3
        obtain ⟨rfl, rfl⟩ := h3
        simp only [SysRun.setTask, List.getElem?_set, hlen, if_true, Option.some.injEq] at h4
        subst h4
        exact ⟨t, _, s, t0, d, ref, h1, h2, hpc, rfl, set_signal_some _ _, rfl⟩
      · simp at h3
    · simp at h3
  · simp at h3

theorem firstMoves_mem {α : Type} {a : Nat → α} {n : Nat} {y : α} : y ∈ firstMoves a n ↔ ∃ k, k < n ∧ a k = y := by
  simp [firstMoves]

theorem jobMoves_signal {r i : Nat} {acts : List SysAct} (h : JobAct.jobSignal ∈ jobMoves r i acts) : SysAct.task r i .jobSignal ∈ acts := by
  simp only [jobMoves, List.mem_filterMap] at h
  obtain ⟨y, hy, he⟩ := h
  split at he
  · rename_i r' i' b
    split at he
    · rename_i hri
      obtain ⟨rfl, rfl⟩ := hri
      cases b <;> simp [jobMove] at he
      exact hy
    · cases he
  · cases he

theorem job_stays {f : Nat → Sys} {x : Nat → SysAct} (hE : Endless f x) {r i m k : Nat} {t : SysTask} (hk : m ≤ k)
    (ht : taskAt (f m) r i = some t) : ∃ t', taskAt (f k) r i = some t' ∧ t'.job = t.job := by
  induction k with
  | zero => rw [Nat.le_zero.1 hk] at ht; exact ⟨t, ht, rfl⟩
  | succ k ih =>
    rcases Nat.lt_or_ge k m with h1 | h1
    · have : m = k + 1 := by omega
      rw [this] at ht; exact ⟨t, ht, rfl⟩
    · obtain ⟨u, hu, he⟩ := ih h1
      rcases task_between (hE.moves k) hu with ⟨h, _⟩ | ⟨b, hb⟩
      · exact ⟨u, h, he⟩
      · have hs := hE.moves k
        rw [hb] at hs
        obtain ⟨ρ, t1, t2, hρ, h1, h2, _, g, ρ', h3, h4⟩ := task_act hs
        rw [hu] at h1; cases h1
        obtain ⟨ρ2, q1, q2⟩ := taskAt_some hu
        rw [hρ] at q1; cases q1
        obtain ⟨v, e1, _, e3, _⟩ := taskStep_frame h3
        rw [e1, List.getElem?_set] at h4
        simp [(List.getElem?_eq_some_iff.1 q2).1] at h4
        subst h4
        exact ⟨_, h2, e3.trans he⟩

theorem key_kept {f : Nat → Sys} {x : Nat → SysAct} (hE : Endless f x) {r i m k : Nat} {t : SysTask} (hk : m ≤ k)
    (ht : taskAt (f m) r i = some t) : ∃ t', taskAt (f k) r i = some t' ∧ t'.key = t.key := by
  induction k with
  | zero => rw [Nat.le_zero.1 hk] at ht; exact ⟨t, ht, rfl⟩
  | succ k ih =>
    rcases Nat.lt_or_ge k m with h1 | h1
    · have : m = k + 1 := by omega
      rw [this] at ht; exact ⟨t, ht, rfl⟩
    · obtain ⟨u, hu, he⟩ := ih h1
      rcases task_between (hE.moves k) hu with ⟨h, _⟩ | ⟨b, hb⟩
      · exact ⟨u, h, he⟩
      · have hs := hE.moves k
        rw [hb] at hs
        obtain ⟨ρ, t1, t2, hρ, h1, h2, _, g, ρ', h3, h4⟩ := task_act hs
        rw [hu] at h1; cases h1
        obtain ⟨ρ2, q1, q2⟩ := taskAt_some hu
        rw [hρ] at q1; cases q1
        obtain ⟨v, e1, e3, _⟩ := taskStep_frame h3
        rw [e1, List.getElem?_set] at h4
        simp [(List.getElem?_eq_some_iff.1 q2).1] at h4
        subst h4
        exact ⟨_, h2, e3.trans he⟩

theorem job_key {f : Nat → Sys} {x : Nat → SysAct} (hE : Endless f x) {r i m k : Nat} {t t' : SysTask} (hk : m ≤ k)
    (ht : taskAt (f m) r i = some t) (ht' : taskAt (f k) r i = some t') : t'.key = t.key := by
  obtain ⟨u, h1, h2⟩ := key_kept hE hk ht
  rw [ht'] at h1; cases h1
  exact h2

/-- The first accepted cancellation of a job is passed on to the step it is executing, if the step does not end before. -/
theorem told {f : Nat → Sys} {x : Nat → SysAct} (hE : Endless f x) (hk : ∀ n, HooksKeepJobs (firstMoves x n)) {r i n0 K : Nat} {t0 : SysTask}
    (ht0 : taskAt (f n0) r i = some t0) (hno : ∀ n, NoOther (f n) t0.job.id r i)
    (hbefore : (t0.job.id, true) ∉ (f n0).answers) (hafter : (t0.job.id, true) ∈ (f (n0 + 1)).answers) (hK : n0 < K)
    (hwork : WeaklyFair Sys.step f x (workOf r i)) (hsig : StronglyFair Sys.step f x fun y => y = .task r i .jobSignal)
    (hread : ∀ k, K ≤ k → ∃ t, taskAt (f k) r i = some t ∧ t.pc.reading = true) :
    ∃ k, n0 ≤ k ∧ x k = .task r i .jobSignal := by
  apply Classical.byContradiction
  intro hnever
  have hjob : ∀ k t, taskAt (f k) r i = some t → t.job = t0.job := by
    intro k t ht
    rcases Nat.le_total k n0 with h | h
    · obtain ⟨t', h1, h2⟩ := job_stays hE h ht
      rw [ht0] at h1; cases h1; exact h2.symm
    · obtain ⟨t', h1, h2⟩ := job_stays hE h ht0
      rw [ht] at h1; cases h1; exact h2
  have hmoves : ∀ n, JobAct.jobSignal ∉ jobMoves r i (firstMoves x n) := by
    intro n hm
    obtain ⟨k, hk', he⟩ := firstMoves_mem.1 (jobMoves_signal hm)
    rcases Nat.lt_or_ge k n0 with h | h
    · have hs := hE.moves k
      rw [he] at hs
      obtain ⟨t, t', s, ts, d, ref, h1, h2, h3, h4, h5, h6⟩ := passes_on hs
      have hj := hjob _ _ h2
      obtain ⟨_, _, hx⟩ := C104_cancel_once (firstMoves x (k + 1)) (f (k + 1)) (endless_reach hE _) (hk _) r i t' h2
        (by rw [hj]; exact hno _) (by rw [h4]; simp)
      have : true ∈ answersFor t'.job.id (f (k + 1)) := hx (by
        simp only [firstMoves_succ, jobMoves, List.filterMap_append, List.mem_append]
        right
        simp [he, jobMove])
      rw [hj, answersFor_true] at this
      exact hbefore (answers_stay hE.moves (by omega) _ this)
    · exact hnever ⟨k, h, he⟩
  obtain ⟨m, hm, hc⟩ := hsig (fun j => by
    obtain ⟨m, t, hm, ht, hs⟩ := comes_to_select hE hwork hread (K + j) (by omega)
    refine ⟨m, by omega, _, rfl, ?_⟩
    unfold IsSelect at hs
    split at hs
    · rename_i s ts d ref hpc
      have hj := hjob _ _ ht
      rcases C104_cancel_passed_on (firstMoves x m) (f m) (endless_reach hE m) (hk m) r i t ht (by rw [hj]; exact hno m) s ts d ref hpc
        (by rw [hj]; exact answers_stay hE.moves (by omega) _ hafter) with h | ⟨M', t', h, _⟩
      · exact absurd h (hmoves m)
      · rw [h]; simp
    · exact absurd hs id) n0
  exact hnever ⟨m, hm, hc⟩

/-! ## The runner's task -/

/-- How far the runner's task is from its end; the `select!` counts once. -/
def stage (l : LocalRun) : Nat :=
  match l.pc with
  | .start => l.plugins + 9
  | .mkdir => l.plugins + 8
  | .entry => l.plugins + 7
  | .select _ => l.plugins + 6
  | .kill _ => l.plugins + 5
  | .remove => l.plugins + 4
  | .returned => l.plugins + 3
  | .hooks k => (l.plugins - k) + 1
  | .done => 0

/-- A move of the runner's task leads on, unless it stays in the `select!`. -/
theorem stage_step {l l' : LocalRun} {b : LocalAct} (h : l.step b = some l') :
    stage l' ≤ stage l ∧ (b.own = true → stage l' < stage l ∨ ∃ c c', l.pc = .select c ∧ l'.pc = .select c' ∧ c ≠ .okDone) ∧
    (b = .sigReady → stage l' < stage l) := by
  cases b <;> simp only [LocalRun.step] at h
  case sigReady =>
    split at h
    · rename_i c hpc
      split at h
      · rename_i sg v hpoll
        cases hk : l.kind <;> simp only [hk, Option.some.injEq] at h <;> subst h <;> simp [stage, hpc]
      · simp at h
    · simp at h
  case mkdirOk =>
    split at h
    · rename_i hpc
      simp only [Option.some.injEq] at h
      subst h
      cases hk : l.kind <;> simp [stage, hpc]
    · simp at h
  case hook =>
    split at h
    · rename_i n hpc
      split at h
      · simp only [Option.some.injEq] at h
        subst h
        simp only [stage, hpc, LocalAct.own]
        refine ⟨by omega, fun _ => .inl (by omega), by simp⟩
      · simp only [Option.some.injEq] at h
        subst h
        simp [stage, hpc]
    · simp at h
  case finish =>
    split at h
    · rename_i hpc
      simp only [Option.some.injEq] at h
      subst h
      simp [stage, hpc]
    · simp at h
  all_goals
    repeat' split at h
    all_goals first
      | (simp at h; done)
      | (simp only [Option.some.injEq] at h
         subst h
         simp_all [stage, LocalAct.own])

theorem stage_share (l : LocalRun) (sg : SigState) : stage (l.shareSignal sg) = stage l := by
  unfold LocalRun.shareSignal
  split <;> rfl

/-- What a move of the engine or its surroundings is for a task of the runner. -/
theorem task_evolves {E E' : LocalEngine} {a : EngineAct} (hs : E.step a = some E') {r i n : Nat} {p : RunPlan} {l : LocalRun}
    (hg : (E.tasks r i)[n]? = some (p, l)) : ∃ l', (E'.tasks r i)[n]? = some (p, l') ∧
      ((∃ b, a = .loc r i n b ∧ l.step b = some l') ∨ ((∀ b, a ≠ .loc r i n b) ∧ stage l' = stage l)) := by
  cases a with
  | sys x =>
    simp only [LocalEngine.step] at hs
    split at hs
    · simp at hs
    · simp only [Option.map_eq_some_iff] at hs
      obtain ⟨M, hM, rfl⟩ := hs
      by_cases hx : ∃ c, x = .task r i c
      · obtain ⟨c, rfl⟩ := hx
        simp only [LocalEngine.shared]
        cases M.jobTask r i with
        | some t =>
          simp only
          split
          · simp only [updTasks, and_self, if_true, List.getElem?_modify, hg]
            refine ⟨if (E.tasks r i).length - 1 = n then l.shareSignal t.sig else l, ?_, .inr ⟨by simp, ?_⟩⟩
            · split <;> rfl
            · split <;> simp [stage_share]
          · exact ⟨l, hg, .inr ⟨by simp, rfl⟩⟩
        | none => exact ⟨l, hg, .inr ⟨by simp, rfl⟩⟩
      · refine ⟨l, ?_, .inr ⟨by simp, rfl⟩⟩
        rw [← hg]
        exact congrArg (·[n]?) (shared_other fun c hc => hx ⟨c, hc⟩)
  | spawned r' i' past envs =>
    simp only [LocalEngine.step] at hs
    split at hs
    · simp only [Option.map_eq_some_iff] at hs
      obtain ⟨M, hM, rfl⟩ := hs
      refine ⟨l, ?_, .inr ⟨by simp, rfl⟩⟩
      simp only [updTasks]
      split
      · rw [List.getElem?_append_left (List.getElem?_eq_some_iff.1 hg).1]; exact hg
      · exact hg
    · simp at hs
  | loc r' i' n' b =>
    by_cases he : r' = r ∧ i' = i ∧ n' = n
    · obtain ⟨rfl, rfl, rfl⟩ := he
      obtain ⟨p', l1, l', h1, h2, h3⟩ := loc_moves hs
      rw [hg] at h1
      cases h1
      exact ⟨l', h3, .inl ⟨b, rfl, h2⟩⟩
    · refine ⟨l, ?_, .inr ⟨?_, rfl⟩⟩
      · simp only [LocalEngine.step] at hs
        split at hs
        · simp at hs
        · simp only [Option.map_eq_some_iff] at hs
          obtain ⟨l2, hl, rfl⟩ := hs
          simp only [updTasks]
          split
          · rename_i hri
            obtain ⟨rfl, rfl⟩ := hri
            rw [List.getElem?_set_ne (fun e => he ⟨rfl, rfl, e⟩)]
            exact hg
          · exact hg
        · simp at hs
      · intro b' hb
        simp only [EngineAct.loc.injEq] at hb
        exact he ⟨hb.1, hb.2.1, hb.2.2.1⟩

/-- A step that was sent a signal and goes on being read: impossible on the local runner, whatever the process does. -/
theorem signalled_ends (setup : EngineSetup) (f : Nat → LocalEngine) (a : Nat → EngineAct) (hE : EngineEndless setup f a) (r i K L : Nat)
    (x : Nat → SysAct) (hx : ∀ n, (f n).sys.step (x n) = some (f (n + 1)).sys) (hxs : ∀ n, Shadow (f n) (a n) (x n))
    (hgetL : ∀ k, K ≤ k → ∃ t p l la, taskAt (f k).sys r i = some t ∧ t.pc.reading = true ∧ ((f k).tasks r i)[L]? = some (p, l) ∧
          LocalReach p setup.plugins.length la l ∧ l.stream.result = t.stream.result ∧ l.sig.signal = t.sig.signal ∧
          L + 1 = ((f k).tasks r i).length)
    (hsg : ∀ k t, K ≤ k → taskAt (f k).sys r i = some t → t.sig.signal ≠ none)
    (hwork : WeaklyFair Sys.step (fun n => (f n).sys) x (workOf r i)) (hrecv : StronglyFair Sys.step (fun n => (f n).sys) x (recvOf r i))
    (htask : WeaklyFair LocalEngine.step f a (runnerTaskOf r i L))
    (hkill : WeaklyFair LocalEngine.step f a fun y => y = .loc r i L .sigReady) : False := by
  have hE' : Endless (fun n => (f n).sys) x := ⟨by simp [hE.start, LocalEngine.initial], hx⟩
  let w : Nat → Nat := fun k => ((((f k).tasks r i)[L]?).map fun y => stage y.2).getD 0
  have hmv : ∀ k, K ≤ k → ∃ p l l' la, ((f k).tasks r i)[L]? = some (p, l) ∧ ((f (k + 1)).tasks r i)[L]? = some (p, l') ∧
      LocalReach p setup.plugins.length la l ∧ w k = stage l ∧ w (k + 1) = stage l' ∧
      ((∃ b, a k = .loc r i L b ∧ l.step b = some l') ∨ ((∀ b, a k ≠ .loc r i L b) ∧ stage l' = stage l)) := by
    intro k hk
    obtain ⟨t, p, l, la, h1, h2, h3, h4, h5, h6, h7⟩ := hgetL k hk
    obtain ⟨l', g1, g2⟩ := task_evolves (hE.moves k) h3
    exact ⟨p, l, l', la, h3, g1, h4, by simp [w, h3], by simp [w, g1], g2⟩
  have hmono : ∀ k, K ≤ k → w (k + 1) ≤ w k := by
    intro k hk
    obtain ⟨p, l, l', la, h1, h2, h3, h4, h5, ⟨b, h6, h7⟩ | ⟨h6, h7⟩⟩ := hmv k hk
    · rw [h4, h5]; exact (stage_step h7).1
    · rw [h4, h5, h7]
  -- the stage does not change any more
  obtain ⟨N, hKN, hN⟩ : ∃ N, K ≤ N ∧ ∀ k, N ≤ k → w (k + 1) = w k := by
    apply Classical.byContradiction
    intro hno
    refine no_descent w K hmono fun m hm => ?_
    apply Classical.byContradiction
    intro hnd
    refine hno ⟨m, hm, fun k hk => ?_⟩
    have h1 := hmono k (by omega)
    rcases Nat.lt_or_ge (w (k + 1)) (w k) with h2 | h2
    · exact absurd ⟨k, hk, h2⟩ hnd
    · omega
  have hconst : ∀ k, N ≤ k → w k = w N := by
    intro k hk
    induction k with
    | zero => rw [Nat.le_zero.1 hk]
    | succ k ih =>
      rcases Nat.lt_or_ge k N with h | h
      · rw [show k + 1 = N by omega]
      · rw [hN k h, ih h]
  -- so an own move stays in the `select!`
  have hown : ∀ k b, N ≤ k → a k = .loc r i L b → b.own = true → ∃ p l c la, ((f k).tasks r i)[L]? = some (p, l) ∧ l.pc = .select c ∧ c ≠ .okDone ∧
      LocalReach p setup.plugins.length la l := by
    intro k b hk he hb
    obtain ⟨p, l, l', la, h1, h2, h3, h4, h5, ⟨b', h6, h7⟩ | ⟨h6, h7⟩⟩ := hmv k (by omega)
    · rw [he] at h6
      cases h6
      rcases (stage_step h7).2.1 hb with h | ⟨c, c', h8, _, h9⟩
      · have := hN k hk
        rw [h4, h5] at this
        omega
      · exact ⟨p, l, c, la, h1, h8, h9, h3⟩
    · exact absurd he (h6 b)
  -- the stream ends
  have hnosel : ∀ k p l la, N ≤ k → ((f k).tasks r i)[L]? = some (p, l) → LocalReach p setup.plugins.length la l → ∀ c, l.pc = .select c →
      ∃ k' p' l' la', k ≤ k' ∧ ((f k').tasks r i)[L]? = some (p', l') ∧ LocalReach p' setup.plugins.length la' l' ∧
        ((∀ c, l'.pc ≠ .select c) ∨ l'.stream.result ≠ none) := by
    intro k p l la hk hg hla c hc
    apply Classical.byContradiction
    intro hno
    have hall : ∀ k', k ≤ k' → ∃ p' l' la' c', ((f k').tasks r i)[L]? = some (p', l') ∧ LocalReach p' setup.plugins.length la' l' ∧
        l'.pc = .select c' ∧ l'.stream.result = none ∧ l'.sig.signal ≠ none := by
      intro k' hk'
      obtain ⟨t, p', l', la', h1, h2, h3, h4, h5, h6, h7⟩ := hgetL k' (by omega)
      have h8 : ¬ ((∀ c, l'.pc ≠ .select c) ∨ l'.stream.result ≠ none) := fun h => hno ⟨k', p', l', la', hk', h3, h4, h⟩
      simp only [not_or, Classical.not_forall, not_not] at h8
      obtain ⟨⟨c', h8⟩, h9⟩ := h8
      exact ⟨p', l', la', c', h3, h4, h8, h9, by rw [h6]; exact hsg k' t (by omega) h1⟩
    obtain ⟨m, hm, he⟩ := hkill ⟨k, fun k' hk' => by
      obtain ⟨p', l', la', c', h1, h2, h3, h4, h5⟩ := hall k' hk'
      refine ⟨_, rfl, loc_possible h1 rfl ?_⟩
      obtain ⟨g1, g2⟩ := local_reach h2
      have hf : l'.sig.isNotified = false := by
        rw [g2.fresh]
        simp only [ResOk, h3] at g1
        cases c' <;> simp only [] at g1
        case okDone => obtain ⟨_, _, e, _⟩ := g1; rw [h4] at e; cases e
        all_goals rw [g1.2.2]; rfl
      obtain ⟨v, hv⟩ := Option.ne_none_iff_exists'.1 h5
      simp only [LocalRun.step, h3, SigState.poll, hf, hv, Bool.false_eq_true, if_false]
      cases l'.kind <;> simp⟩ k
    obtain ⟨p, l, l', la, h1, h2, h3, h4, h5, ⟨b', h6, h7⟩ | ⟨h6, h7⟩⟩ := hmv m (by omega)
    · rw [show a m = _ from he] at h6
      cases h6
      have := (stage_step h7).2.2 rfl
      have h8 := hN m (by omega)
      rw [h4, h5] at h8
      omega
    · exact absurd he (h6 _)
  obtain ⟨k1, p1, l1, la1, hk1, hg1, hl1, hr1⟩ : ∃ k1 p1 l1 la1, N ≤ k1 ∧ ((f k1).tasks r i)[L]? = some (p1, l1) ∧
      LocalReach p1 setup.plugins.length la1 l1 ∧ l1.stream.result ≠ none := by
    apply Classical.byContradiction
    intro hno
    have hnone : ∀ k p l la, N ≤ k → ((f k).tasks r i)[L]? = some (p, l) → LocalReach p setup.plugins.length la l → l.stream.result = none := by
      intro k p l la h1 h2 h3
      cases hq : l.stream.result with
      | none => rfl
      | some v => exact absurd ⟨k, p, l, la, h1, h2, h3, by rw [hq]; simp⟩ hno
    -- an own move is always possible
    obtain ⟨m, hm, b, hb, hb2, _⟩ := htask ⟨N, fun k hk => by
      obtain ⟨t, p, l, la, h1, h2, h3, h4, h5, h6, h7⟩ := hgetL k (by omega)
      obtain ⟨b, b1, b2, b3⟩ := signalled_goes_on h4 (hnone k p l la hk h3 h4) (by rw [h6]; exact hsg k t (by omega) h1)
      exact ⟨.loc r i L b, ⟨b, rfl, b1, b2⟩, loc_possible h3 b1 b3⟩⟩ N
    obtain ⟨p, l, c, la, h1, h2, h3, h4⟩ := hown m b hm hb hb2
    obtain ⟨k', p', l', la', g1, g2, g3, g4 | g4⟩ := hnosel m p l la hm h1 h4 c h2
    · -- it left the `select!` without moving on
      have e1 := hconst m hm
      have e2 := hconst k' (by omega)
      have e3 : w m = stage l := by simp [w, h1]
      have e4 : w k' = stage l' := by simp [w, g2]
      have e5 : stage l' = stage l := by rw [← e3, ← e4, e1, e2]
      have p1 := (local_reach h4).2.plugins
      have p2 := (local_reach g3).2.plugins
      simp only [stage, h2] at e5
      cases hpc : l'.pc <;> simp only [hpc] at e5 g4
      case select c => exact g4 c rfl
      all_goals omega
    · exact g4 (hnone k' p' l' la' (by omega) g2 g3)
  -- and has ended from then on
  have hend : ∀ k, k1 ≤ k → ∃ t, taskAt (f k).sys r i = some t ∧ t.pc.reading = true ∧ t.stream.result ≠ none := by
    intro k hk
    induction k with
    | zero =>
      obtain ⟨t, p, l, la, h1, h2, h3, h4, h5, h6, h7⟩ := hgetL 0 (by omega)
      have : k1 = 0 := by omega
      rw [this, h3] at hg1; cases hg1
      exact ⟨t, h1, h2, by rw [← h5]; exact hr1⟩
    | succ k ih =>
      obtain ⟨t, p, l, la, h1, h2, h3, h4, h5, h6, h7⟩ := hgetL (k + 1) (by omega)
      rcases Nat.lt_or_ge k k1 with h | h
      · have e : k1 = k + 1 := by omega
        rw [e, h3] at hg1; cases hg1
        exact ⟨t, h1, h2, by rw [← h5]; exact hr1⟩
      · obtain ⟨u, g1, g2, g3⟩ := ih h
        refine ⟨t, h1, h2, ?_⟩
        rcases task_between (hx k) g1 with ⟨h8, _⟩ | ⟨b, hb⟩
        · rw [h8] at h1; cases h1; exact g3
        · have hs := hx k
          rw [hb] at hs
          obtain ⟨ρ, t1, t2, hρ, e1, e2, _, g, ρ', e3, e4⟩ := task_act hs
          rw [g1] at e1; cases e1
          rw [h1] at e2; cases e2
          obtain ⟨ρ2, q1, q2⟩ := taskAt_some g1
          rw [hρ] at q1; cases q1
          exact (cycle_move (taskOk_reach (endless_reach hE' _) hρ (List.mem_of_getElem? q2)) (List.getElem?_eq_some_iff.1 q2).1 e3 e4
            (reading_cycle g2) (reading_cycle h2)).1 g3
  refine notices_the_end hE' hwork hrecv hend ?_
  intro k lg hk he
  have hs := hxs k
  rw [he] at hs
  cases ha : a k with
  | sys y => rw [ha] at hs; obtain ⟨h1, h2⟩ := hs; rw [← h1] at h2; cases h2
  | spawned r' i' past envs =>
    rw [ha] at hs
    have hs : SysAct.task r i (.push lg) = .task r' i' .accept := hs
    simp at hs
  | loc r' i' n' b =>
    rw [ha] at hs
    rcases hs with hs | ⟨b', h1, _, h3, h4⟩
    · cases hs
    · simp only [SysAct.task.injEq] at h1
      obtain ⟨rfl, rfl, _⟩ := h1
      obtain ⟨t, p, l, la, g1, g2, g3, g4, g5, g6, g7⟩ := hgetL k (by omega)
      have : n' = L := by omega
      subst this
      obtain ⟨p', l', c, la', e1, e2, e3, e4⟩ := hown k b (by omega) ha h3
      rw [g3] at e1; cases e1
      obtain ⟨t', q1, q2, q3⟩ := hend k hk
      rw [g1] at q1; cases q1
      have hR := (local_reach e4).1
      simp only [ResOk, e2] at hR
      rw [← g5] at q3
      cases c <;> simp only [] at hR
      case okDone => exact e3 rfl
      all_goals exact q3 hR.1

/-- The engine's side of an endless execution on the local runner. -/
theorem shadow_endless (setup : EngineSetup) (f : Nat → LocalEngine) (a : Nat → EngineAct) (hE : EngineEndless setup f a)
    (hap : ∀ n, Apart (engineMoves (firstMoves a n))) (hk : ∀ n, EngineHooksKeepJobs setup (firstMoves a n)) :
    ∃ x : Nat → SysAct, Endless (fun n => (f n).sys) x ∧ (∀ n, Apart (firstMoves x n)) ∧ (∀ n, HooksKeepJobs (firstMoves x n)) ∧
      (∀ n, (f n).sys.step (x n) = some (f (n + 1)).sys) ∧ ∀ n, Shadow (f n) (a n) (x n) := by
  have hsh : ∀ n, ∃ x, (f n).sys.step x = some (f (n + 1)).sys ∧ Shadow (f n) (a n) x := fun n => engine_shadow (hE.moves n)
  choose x hx hxs using hsh
  have hE' : Endless (fun n => (f n).sys) x := ⟨by simp [hE.start, LocalEngine.initial], hx⟩
  refine ⟨x, hE', ?_, ?_, hx, hxs⟩
  · intro n
    obtain ⟨h1, h2⟩ := shadow_moves hxs n
    have := hap n
    exact ⟨h1 ▸ this.distinct, h1 ▸ this.own, fun r i b s hm => h1 ▸ this.hooks r i b s (h2 r i b s hm)⟩
  · intro n
    induction n with
    | zero => intro pre r i b s post he; simp [firstMoves] at he
    | succ n ih =>
      rw [firstMoves_succ]
      refine ih.snoc (endless_reach hE' n) ?_
      intro r i b s he ρ t h1 h2
      have hs := hxs n
      cases ha : a n with
      | sys y =>
        rw [ha] at hs
        have := hs.1
        rw [he] at this
        subst this
        have := hk (n + 1)
        rw [firstMoves_succ, ha] at this
        exact this (firstMoves a n) r i b s [] rfl (f n) (endless_engine hE n) t (by simp only [taskAt]; rw [h1]; exact h2)
      | spawned r' i' past envs =>
        rw [ha] at hs
        have : x n = _ := hs
        rw [he] at this; simp at this
      | loc r' i' k b' =>
        rw [ha] at hs
        rcases hs with hs | ⟨b'', h3, h4, _⟩
        · rw [he] at hs; cases hs
        · rw [he] at h3
          rw [← h3] at h4; cases h4

theorem noOther_back {f : Nat → Sys} {x : Nat → SysAct} (hE : Endless f x) {j : JobId} {r i m k : Nat} (h : m ≤ k)
    (hno : NoOther (f k) j r i) : NoOther (f m) j r i := by
  induction k with
  | zero => rw [Nat.le_zero.1 h]; exact hno
  | succ k ih =>
    rcases Nat.lt_or_ge k m with h1 | h1
    · have : m = k + 1 := by omega
      rw [this]; exact hno
    · exact ih h1 (hno.init (endless_reach hE k) (hE.moves k))

theorem wf_stays {f : Nat → Sys} {x : Nat → SysAct} (hE : Endless f x) (hap : ∀ n, Apart (firstMoves x n)) {r m k : Nat} {ρ : SysRun} (h : m ≤ k)
    (hr : (f m).runs[r]? = some ρ) : ∃ ρ', (f k).runs[r]? = some ρ' ∧ ρ'.wf = ρ.wf := by
  induction k with
  | zero => rw [Nat.le_zero.1 h] at hr; exact ⟨ρ, hr, rfl⟩
  | succ k ih =>
    rcases Nat.lt_or_ge k m with h1 | h1
    · have : m = k + 1 := by omega
      rw [this] at hr; exact ⟨ρ, hr, rfl⟩
    · obtain ⟨ρ', h2, h3⟩ := ih h1
      obtain ⟨ρ'', h4, h5⟩ := step_far ((engineOk_reach (hap k) (endless_reach hE k)).runs r ρ' h2) h2 (hE.moves k)
      exact ⟨ρ'', h4, h5.1.trans h3⟩

end CancelFairLem

/-- **C104** (when it applies) A job run is the only one of its job if no two runs of the engine use the same ids, and its workflow's run
has started the job once only. -/
theorem C104_only_run_once (acts : List SysAct) (M : Sys) (h : SysReach acts M) (ha : Apart acts) (r : Nat) (ρ : SysRun)
    (hr : M.runs[r]? = some ρ) (ho : OwnIds ρ.wf) (i : Nat) (t : SysTask)
    (ht : taskAt M r i = some t) (honce : StartedOnce ρ t.key) : NoOther M t.job.id r i := by
  obtain ⟨ρ0, hr0, ht0⟩ := taskAt_some ht
  rw [hr] at hr0; cases hr0
  intro r' i' hx
  obtain ⟨ρ', t', hr', ht', he⟩ := announced_evs h hx
  have hid : t.job.id = t'.job.id := by
    have hL := ((runLife_reach h hr').tasks t' (List.mem_of_getElem? ht')).ordered
    obtain ⟨pre, post, hp⟩ := List.append_of_mem he
    exact (hL pre _ post hp).1
  have hj := (runJobs_reach h r ρ hr).tasks i t ht0
  have hj' := (runJobs_reach h r' ρ' hr').tasks i' t' ht'
  have hs := (C80_runs_do_not_interfere_partial acts M h ha r ρ hr).1
  have hs' := (C80_runs_do_not_interfere_partial acts M h ha r' ρ' hr').1
  have e1 := ha.own _ (List.mem_of_getElem? hs) _ _ hj
  have e2 := ha.own _ (List.mem_of_getElem? hs') _ _ hj'
  have hwf : ρ.wf.id = ρ'.wf.id := by
    have : ρ.wf.id.id = ρ'.wf.id.id := by rw [← e1, ← e2, hid]
    cases h1 : ρ.wf.id; cases h2 : ρ'.wf.id
    rw [h1, h2] at this
    exact congrArg _ this
  have hrr : r' = r := by
    obtain ⟨l1, g1⟩ := List.getElem?_eq_some_iff.1 hs
    obtain ⟨l2, g2⟩ := List.getElem?_eq_some_iff.1 hs'
    refine (List.Nodup.getElem_inj_iff ha.distinct (hi := by simpa using l2) (hj := by simpa using l1)).1 ?_
    simp [g1, g2, hwf]
  subst hrr
  rw [hr] at hr'; cases hr'
  refine ⟨rfl, ?_⟩
  have hkey := ho.1 _ _ _ _ hj hj' hid
  exact honce i' i ⟨t', ht', hkey.symm⟩ ⟨t, ht0, rfl⟩

/-- **C02**, of a run in a busy engine: it starts no job twice, if every job with dependencies is an ancestor or a descendant of every other. -/
theorem C02_started_once_partial (acts : List SysAct) (M : Sys) (h : SysReach acts M) (ha : Apart acts) (r : Nat) (ρ : SysRun)
    (hr : M.runs[r]? = some ρ) (hu : UniqueJobs ρ.wf) (hc : NoParallelDependents ρ.wf) (k : Id) : StartedOnce ρ k := by
  obtain ⟨hs, wacts, m, hm, hsame⟩ := C80_runs_do_not_interfere_partial acts M h ha r ρ hr
  have hrun : ∀ (i : Nat) (t : SysTask), ρ.tasks[i]? = some t → IsRunOf m i t.key := by
    intro i t ht
    have := congrArg (·[i]?) hsame.tasks
    simp only [List.getElem?_map, ht, Option.map_some] at this
    cases hmt : m.tasks[i]? with
    | none => simp [hmt] at this
    | some u =>
      simp only [hmt, Option.map_some, Option.some.injEq, Prod.mk.injEq] at this
      exact ⟨u, hmt, this.1⟩
  rintro i j ⟨t, ht, rfl⟩ ⟨u, hv, he⟩
  exact C02_single_run_partial ρ.wf hu hc wacts m hm i j t.key (hrun i t ht) (he ▸ hrun j u hv)

/-- **C104** (when it applies) A job run is the only one of its job if no two runs of the engine use the same ids and, in its workflow,
every job with dependencies is an ancestor or a descendant of every other job (C02). -/
theorem C104_only_run (acts : List SysAct) (M : Sys) (h : SysReach acts M) (ha : Apart acts) (r : Nat) (ρ : SysRun)
    (hr : M.runs[r]? = some ρ) (hu : UniqueJobs ρ.wf) (ho : OwnIds ρ.wf) (hc : NoParallelDependents ρ.wf) (i : Nat) (t : SysTask)
    (ht : taskAt M r i = some t) : NoOther M t.job.id r i :=
  C104_only_run_once acts M h ha r ρ hr ho i t ht (C02_started_once_partial acts M h ha r ρ hr hu hc t.key)

open FairLem FairLocalLem SilentLem CancelFairLem

/-- A job task that leaves the step it is executing has its result. -/
theorem CancelFairLem.step_left {g g' : SigMgr} {ρ ρ' : SysRun} {now : Time} {i : Nat} {t t' : SysTask} {b : TaskAct} (ht : ρ.tasks[i]? = some t)
    (hs : Sys.taskStep g ρ now i t b = some (g', ρ')) (ht' : ρ'.tasks[i]? = some t') {s : Step} (hr : stepOf t.pc = some s) :
    (stepOf t'.pc = some s ∧ t'.results = t.results) ∨ ∃ sr, t'.results = t.results ++ [sr] ∧ sr.id = s.id := by
  obtain ⟨u, h1, _, _, _, _, _, _, _, _, hc⟩ := taskStep_frame hs
  have hu : t' = u := by
    rw [h1, List.getElem?_set] at ht'
    simp [(List.getElem?_eq_some_iff.1 ht).1] at ht'
    exact ht'.symm
  subst hu
  rcases hc with ⟨e, es, k, hpc, rfl, _⟩ | ⟨k, hpc, rfl, _⟩ | ⟨s, t0, ref, hpc, rfl, _⟩ | ⟨s, t0, hpc, rfl, _⟩ |
    ⟨s, t0, d, ref, sg, hpc, rfl, _⟩ | ⟨r, hpc, rfl, _⟩ | ⟨hs, _⟩
  · rw [hpc] at hr; cases k <;> exact .inl ⟨hr, rfl⟩
  · rw [hpc] at hr; cases k <;> first | exact .inl ⟨hr, rfl⟩ | cases hr
  · rw [hpc] at hr; cases hr
  · rw [hpc] at hr; cases hr
  · rw [hpc] at hr; exact .inl ⟨hr, rfl⟩
  · rw [hpc] at hr; cases hr
  · cases b <;> simp only [SysTask.step] at hs
    case push | endStream =>
      split at hs
      · cases hs; exact .inl ⟨hr, rfl⟩
      · simp at hs
    case recv =>
      split at hs
      · rename_i s' t0 d ref hpc
        rw [hpc] at hr
        cases hr
        split at hs
        · cases hs; exact .inl ⟨rfl, rfl⟩
        · split at hs
          · rename_i res _
            cases hs
            exact .inr ⟨_, rfl, by cases res <;> rfl⟩
          · simp at hs
        · simp at hs
      · simp at hs
    case refuse e =>
      split at hs
      · rename_i s' t0 ref hpc
        rw [hpc] at hr
        cases hr
        cases hs
        exact .inr ⟨_, rfl, rfl⟩
      · simp at hs
    all_goals
      first
        | (simp at hs; done)
        | (split at hs
           · rename_i hpc
             first
               | (rw [hpc] at hr; cases hr; cases hs; exact .inl ⟨rfl, rfl⟩)
               | (rw [hpc] at hr; cases hr; done)
               | (rw [hpc] at hr; cases hr
                  split at hs
                  · cases hs; exact .inl ⟨rfl, rfl⟩
                  · simp at hs)
           · simp at hs)
        | (split at hs
           · rename_i hpc _
             rw [hpc] at hr; cases hr
           · simp at hs)

theorem CancelFairLem.active_of {pc : SysPc} {s : Step} (h : stepOf pc = some s) : pc.runnerActive = true := by
  unfold stepOf at h
  split at h <;> first | rfl | cases h

/-- A job that is executing a step has been announced and not been reported complete. -/
theorem CancelFairLem.announced_in_step {acts : List SysAct} {M : Sys} (h : SysReach acts M) (hk : HooksKeepJobs acts) {r i : Nat} {t : SysTask}
    (ht : taskAt M r i = some t) (hno : NoOther M t.job.id r i) {s : Step} (hs : stepOf t.pc = some s) :
    Event.runJob t.job.id ∈ t.evs ∧ ∀ res : JobRunResult, Event.jobCompleted res ∉ t.evs := by
  obtain ⟨ja, lag, m, sl, hr, hsl, hph, hmv⟩ := alone_reach h hk hno (fun u hu => by rw [ht] at hu; cases hu; rfl)
  have hlife : LifeAt t t.evs t.pc := by
    simp only [taskAt, Option.bind_eq_some_iff] at ht
    obtain ⟨ρ, h1, h2⟩ := ht
    exact (runLife_reach h h1).tasks t (List.mem_of_getElem? h2)
  have hreg : Event.runJob t.job.id ∉ t.evs → sl = none := by
    intro hn
    have := slot_none (r := r) (i := i) h hno (fun u hu => by rw [ht] at hu; cases hu; exact hn)
    match sl, hsl with
    | none, _ => rfl
    | some (ref, c), hsl => simp [Slot, this] at hsl
  rw [ht] at hph
  generalize hjob : t.job = job at *
  generalize hans : answersFor job.id M = ans at *
  generalize hta : some t = ot at hph
  cases hph with
  | unborn => cases hta
  | init key => cases hta; cases hs
  | starting key n b hn hb => cases hta; cases hs
  | running t' ref c hj hp =>
    cases hta
    refine ⟨?_, active_not_completed hlife hp⟩
    by_cases hx : Event.runJob job.id ∈ t.evs
    · exact hx
    · exact absurd (hreg hx) (by simp)
  | finishing t' ref c es E tf hj hr hp hes hE hn => cases hta; rw [hp] at hs; cases hs
  | over t' hj hp =>
    cases hta
    exfalso
    cases hpc : t.pc with
    | emitting es k => rw [hpc] at hs hp; cases k <;> first | (cases hs; done) | exact hp.elim | exact hp.2
    | finished r => rw [hpc] at hs; cases hs
    | sent r => rw [hpc] at hs; cases hs
    | _ => rw [hpc] at hp; exact hp

/-- **C124** (for workflows of any shape, if the job is not started twice) An engine on the local runner, in any endless execution, whatever its users, its other workflows, the operating system and the
processes do: if a job is executing a step when `cancel_job` is first called for it, the tasks concerned are not starved, and the `select!`s that could notice
the cancellation and the end of the stream do not ignore them forever, then the step comes to its end, even if its process never ends and
never stops writing (in which case it does not time out either). -/
theorem C124_cancelled_steps_end_once (setup : EngineSetup) (f : Nat → LocalEngine) (a : Nat → EngineAct) (hE : EngineEndless setup f a)
    (hap : ∀ n, Apart (engineMoves (firstMoves a n))) (hk : ∀ n, EngineHooksKeepJobs setup (firstMoves a n)) (r i n0 : Nat) (ρ0 : SysRun)
    (hr0 : (f n0).sys.runs[r]? = some ρ0) (ho : OwnIds ρ0.wf) (t0 : SysTask)
    (ht0 : taskAt (f n0).sys r i = some t0) (s : Step) (hs : stepOf t0.pc = some s)
    (honce : ∀ n ρ, n0 ≤ n → (f n).sys.runs[r]? = some ρ → StartedOnce ρ t0.key)
    (hcancel : a n0 = .sys (.cancel t0.job.id)) (hbefore : (t0.job.id, true) ∉ (f n0).sys.answers)
    (hjob : WeaklyFair LocalEngine.step f a (engineJobOf r i)) (hrecv : StronglyFair LocalEngine.step f a (engineRecvOf r i))
    (hsig : StronglyFair LocalEngine.step f a (engineSignalOf r i)) (htask : ∀ n, WeaklyFair LocalEngine.step f a (runnerTaskOf r i n))
    (hkill : ∀ n, WeaklyFair LocalEngine.step f a (runnerSignalOf r i n)) :
    ∃ n t sr, n0 < n ∧ taskAt (f n).sys r i = some t ∧ t.results = t0.results ++ [sr] ∧ sr.id = s.id := by
  apply Classical.byContradiction
  intro hnever
  obtain ⟨x, hE', hap', hk', hx, hxs⟩ := shadow_endless setup f a hE hap hk
  -- it stays in the step
  have hin : ∀ k, n0 ≤ k → ∃ t, taskAt (f k).sys r i = some t ∧ stepOf t.pc = some s ∧ t.results = t0.results := by
    intro k hk
    induction k with
    | zero => rw [Nat.le_zero.1 hk] at ht0; exact ⟨t0, ht0, hs, rfl⟩
    | succ k ih =>
      rcases Nat.lt_or_ge k n0 with h | h
      · have e : n0 = k + 1 := by omega
        rw [e] at ht0; exact ⟨t0, ht0, hs, rfl⟩
      · obtain ⟨u, h1, h2, h3⟩ := ih h
        rcases task_between (hx k) h1 with ⟨h4, _⟩ | ⟨b, hb⟩
        · exact ⟨u, h4, h2, h3⟩
        · have hst := hx k
          rw [hb] at hst
          obtain ⟨ρ, t1, t2, hρ, e1, e2, _, g, ρ', e3, e4⟩ := task_act hst
          rw [h1] at e1; cases e1
          obtain ⟨ρ2, q1, q2⟩ := taskAt_some h1
          rw [hρ] at q1; cases q1
          rcases step_left q2 e3 e4 h2 with ⟨h5, h6⟩ | ⟨sr, h5, h6⟩
          · exact ⟨t2, e2, h5, h6.trans h3⟩
          · exact absurd ⟨k + 1, t2, sr, by omega, e2, by rw [h5, h3], h6⟩ hnever
  have hact : ∀ k t, n0 ≤ k → taskAt (f k).sys r i = some t → t.pc.runnerActive = true := by
    intro k t hk ht
    obtain ⟨u, h1, h2, _⟩ := hin k hk
    rw [ht] at h1; cases h1
    exact active_of h2
  obtain ⟨m1, L, hm1, hgetL⟩ := reads_forever setup f a hE r i n0 t0 hjob x hx hxs ht0 hact
  -- the cancellation is passed on
  have hno : ∀ n, NoOther (f n).sys t0.job.id r i := by
    have later : ∀ n, n0 ≤ n → NoOther (f n).sys t0.job.id r i := by
      intro n hn
      obtain ⟨t, h1, h2⟩ := job_stays hE' hn ht0
      obtain ⟨ρ, h3, h4⟩ := taskAt_some h1
      obtain ⟨ρ', h5, h6⟩ := wf_stays hE' hap' hn hr0
      rw [h3] at h5; cases h5
      have := C104_only_run_once (firstMoves x n) (f n).sys (endless_reach hE' n) (hap' n) r ρ h3 (by rw [h6]; exact ho)
        i t h1 (by rw [job_key hE' hn ht0 h1]; exact honce n ρ hn h3)
      rwa [h2] at this
    intro n
    rcases Nat.le_total n0 n with h | h
    · exact later n h
    · exact noOther_back hE' h (later n0 (Nat.le_refl _))
  have hafter : (t0.job.id, true) ∈ (f (n0 + 1)).sys.answers := by
    obtain ⟨M', ok, h1, h2, h3⟩ := C104_cancel_answered (firstMoves x n0) (f n0).sys (endless_reach hE' n0) (hk' n0) r i t0 ht0 (hno n0)
    obtain ⟨h4, h5⟩ := announced_in_step (endless_reach hE' n0) (hk' n0) ht0 (hno n0) hs
    have h6 := hxs n0
    rw [hcancel] at h6
    have h7 := hx n0
    rw [h6.1] at h7
    rw [h1] at h7
    rw [← Option.some.inj h7, h2, h3.2 ⟨h4, h5, hbefore⟩]
    simp
  obtain ⟨k, hk, he⟩ := told (K := m1 + 1) hE' hk' ht0 hno hbefore hafter (by omega) (work_fair hjob hxs) (by
      intro hf
      have := hsig (by
        intro n
        obtain ⟨m, hm, y, hy, hp⟩ := hf n
        have hy : y = _ := hy
        subst hy
        exact ⟨m, hm, _, rfl, sys_possible rfl hp⟩)
      intro n
      obtain ⟨m, hm, hc⟩ := this n
      have hs := hxs m
      rw [show a m = _ from hc] at hs
      exact ⟨m, hm, hs.1⟩) (by
      intro k hk
      obtain ⟨t, _, _, _, h1, h2, _⟩ := hgetL k (by omega)
      exact ⟨t, h1, h2⟩)
  have hst := hx k
  rw [he] at hst
  obtain ⟨t1, t2, s', ts, d, ref, g1, g2, g3, g4, g5, g6⟩ := passes_on hst
  have hsg : ∀ k', k + 1 ≤ k' → ∃ t, taskAt (f k').sys r i = some t ∧ t.pc.reading = true ∧ t.sig.signal ≠ none := by
    intro k' hk'
    induction k' with
    | zero => omega
    | succ k' ih =>
      rcases Nat.lt_or_ge k' (k + 1) with h | h
      · have e : k' = k := by omega
        subst e
        exact ⟨t2, g2, by rw [g4]; rfl, g5⟩
      · obtain ⟨u, h1, h2, h3⟩ := ih h
        rcases task_between (hx k') h1 with ⟨h4, _⟩ | ⟨b, hb⟩
        · exact ⟨u, h4, h2, h3⟩
        · have hst := hx k'
          rw [hb] at hst
          obtain ⟨ρ, v1, v2, hρ, e1, e2, _, g, ρ', e3, e4⟩ := task_act hst
          rw [h1] at e1; cases e1
          obtain ⟨ρ2, q1, q2⟩ := taskAt_some h1
          rw [hρ] at q1; cases q1
          have hrd := reading_stays q2 e3 e4 h2 (hact (k' + 1) v2 (by omega) e2)
          exact ⟨v2, e2, hrd, signal_stays e3 e4 h3 hrd⟩
  refine signalled_ends setup f a hE r i (m1 + k + 1) L x hx hxs (fun k' hk' => hgetL k' (by omega)) ?_ (work_fair hjob hxs) ?_ (htask L) (hkill L)
  · intro k' t hk' ht
    obtain ⟨u, h1, _, h3⟩ := hsg k' (by omega)
    rw [ht] at h1; cases h1
    exact h3
  · intro hf
    have := hrecv (by
      intro n
      obtain ⟨m, hm, y, hy, hp⟩ := hf n
      have hy : y = _ := hy
      subst hy
      exact ⟨m, hm, _, rfl, sys_possible rfl hp⟩)
    intro n
    obtain ⟨m, hm, hc⟩ := this n
    have hs := hxs m
    rw [show a m = _ from hc] at hs
    exact ⟨m, hm, hs.1⟩

open FairSched

/-- **C124** An engine on the local runner, in any endless execution, whatever its users, its other workflows, the operating system and the
processes do: if a job is executing a step when `cancel_job` is first called for it, the tasks concerned are not starved, and the `select!`s that could notice
the cancellation and the end of the stream do not ignore them forever, then the step comes to its end, even if its process never ends and
never stops writing (in which case it does not time out either). -/
theorem C124_cancelled_steps_end (setup : EngineSetup) (f : Nat → LocalEngine) (a : Nat → EngineAct) (hE : EngineEndless setup f a)
    (hap : ∀ n, Apart (engineMoves (firstMoves a n))) (hk : ∀ n, EngineHooksKeepJobs setup (firstMoves a n)) (r i n0 : Nat) (ρ0 : SysRun)
    (hr0 : (f n0).sys.runs[r]? = some ρ0) (hu : UniqueJobs ρ0.wf) (ho : OwnIds ρ0.wf) (hc : NoParallelDependents ρ0.wf) (t0 : SysTask)
    (ht0 : taskAt (f n0).sys r i = some t0) (s : Step) (hs : stepOf t0.pc = some s)
    (hcancel : a n0 = .sys (.cancel t0.job.id)) (hbefore : (t0.job.id, true) ∉ (f n0).sys.answers)
    (hjob : WeaklyFair LocalEngine.step f a (engineJobOf r i)) (hrecv : StronglyFair LocalEngine.step f a (engineRecvOf r i))
    (hsig : StronglyFair LocalEngine.step f a (engineSignalOf r i)) (htask : ∀ n, WeaklyFair LocalEngine.step f a (runnerTaskOf r i n))
    (hkill : ∀ n, WeaklyFair LocalEngine.step f a (runnerSignalOf r i n)) :
    ∃ n t sr, n0 < n ∧ taskAt (f n).sys r i = some t ∧ t.results = t0.results ++ [sr] ∧ sr.id = s.id := by
  obtain ⟨x, hE', hap', hk', hx, hxs⟩ := shadow_endless setup f a hE hap hk
  refine C124_cancelled_steps_end_once setup f a hE hap hk r i n0 ρ0 hr0 ho t0 ht0 s hs (fun n ρ hn h => ?_) hcancel hbefore hjob hrecv hsig htask
    hkill
  obtain ⟨ρ', h5, h6⟩ := wf_stays hE' hap' hn hr0
  rw [h] at h5; cases h5
  exact C02_started_once_partial _ _ (endless_reach hE' n) (hap' n) r ρ h (h6 ▸ hu) (h6 ▸ hc) _

namespace CancelFairLem

/-- The kinds of moves: of job tasks, the branches of their `select!`, the runner's tasks, the signal branch of theirs, processes that write,
and main tasks. -/
def loudOf (c r i n : Nat) : EngineAct → Prop :=
  match c with
  | 0 => engineJobOf r i
  | 1 => engineRecvOf r i
  | 2 => engineSignalOf r i
  | 3 => runnerTaskOf r i n
  | 4 => runnerSignalOf r i n
  | 5 => writesOf r i n
  | 6 => engineMainOf r
  | _ => fun _ => False

/-- The kinds, numbered. -/
def loudKind (k : Nat) : EngineAct → Prop :=
  loudOf (Nat.unpair k).1 (Nat.unpair (Nat.unpair k).2).1 (Nat.unpair (Nat.unpair (Nat.unpair k).2).2).1
    (Nat.unpair (Nat.unpair (Nat.unpair k).2).2).2

theorem loudKind_no (c r i n : Nat) : loudKind (kindNo c r i n) = loudOf c r i n := by
  simp only [loudKind, kindNo, Nat.unpair_pair]

theorem loudOf_start {c r i n : Nat} {wf : Workflow} (hy : loudOf c r i n (.sys (.start wf))) : False := by
  match c, hy with
  | 0, .inl ⟨z, e, hz⟩ =>
    cases e
    obtain ⟨b', e, hb'⟩ := FairLem.workOf_iff.1 hz
    cases e
  | 0, .inr ⟨p, en, e⟩ => cases e
  | 1, e => cases e
  | 2, e => cases e
  | 3, ⟨b', e, _⟩ => cases e
  | 4, e => cases e
  | 5, ⟨l, e⟩ => cases e
  | 6, ⟨b, e⟩ => cases e
  | (_ + 7), e => exact e

theorem loudOf_neverEnding {c r i n : Nat} {y : EngineAct} (hy : loudOf c r i n y) : neverEnding y = true := by
  match c, hy with
  | 0, .inl ⟨z, e, hz⟩ =>
    obtain ⟨b', rfl, hb'⟩ := FairLem.workOf_iff.1 hz
    rw [e]
    cases b' <;> first | rfl | exact absurd hb' id
  | 0, .inr ⟨p, en, e⟩ => rw [e]; rfl
  | 1, e => rw [show y = _ from e]; rfl
  | 2, e => rw [show y = _ from e]; rfl
  | 3, ⟨b', e, ho, hf⟩ => rw [e]; cases b' <;> first | rfl | exact absurd ho Bool.false_ne_true | exact absurd hf.symm Bool.false_ne_true
  | 4, e => rw [show y = _ from e]; rfl
  | 5, ⟨l, e⟩ => rw [e]; rfl
  | 6, ⟨b, e⟩ => rw [e]; rfl
  | (_ + 7), e => exact absurd e id

theorem loud_no_start {k : Nat} {wf : Workflow} (hy : loudKind k (.sys (.start wf))) : False := loudOf_start hy

/-- A kind with one hook has them all. -/
theorem loudOf_next {c r i n r' i' : Nat} {b : Bool} {s : Step} (s' : Step)
    (hy : loudOf c r i n (.sys (.task r' i' (.nextStep b s)))) : loudOf c r i n (.sys (.task r' i' (.nextStep b s'))) := by
  match c, hy with
  | 0, .inl ⟨z, e, hz⟩ =>
    cases e
    obtain ⟨b', e, hb'⟩ := FairLem.workOf_iff.1 hz
    cases e
    exact .inl ⟨_, rfl, FairLem.workOf_iff.2 ⟨_, rfl, hb'⟩⟩
  | 0, .inr ⟨p, en, e⟩ => cases e
  | 1, e => cases e
  | 2, e => cases e
  | 3, ⟨b', e, _⟩ => cases e
  | 4, e => cases e
  | 5, ⟨l, e⟩ => cases e
  | 6, ⟨b', e⟩ => cases e
  | (_ + 7), e => exact absurd e id

/-- No kind starts a run, and each can be done without hooks that move steps to other jobs. -/
theorem loud_moves {setup : EngineSetup} {acts : List EngineAct} {E : LocalEngine} {k : Nat} (h : EngineFine setup acts E)
    (hc : can LocalEngine.step loudKind E k) :
    ∃ y E', loudKind k y ∧ E.step y = some E' ∧ EngineFine setup (acts ++ [y]) E' ∧ neverEnding y = true := by
  obtain ⟨y, hy, hs⟩ := hc
  obtain ⟨E', hE'⟩ := Option.ne_none_iff_exists'.1 hs
  by_cases hn : ∃ r i b s, y = .sys (.task r i (.nextStep b s))
  · obtain ⟨r, i, b, s, rfl⟩ := hn
    simp only [LocalEngine.step, SysAct.byRunner, Bool.false_eq_true, if_false, Option.map_eq_some_iff] at hE'
    obtain ⟨M, hM, -⟩ := hE'
    obtain ⟨ρ, t, x, hρ, hT, -, -, g, ρ1, hx, -⟩ := task_act hM
    obtain ⟨ρ', hρ', ht⟩ := taskAt_some hT
    rw [hρ] at hρ'
    cases hρ'
    let s' : Step := { s with id := ⟨t.job.id.workflow, t.job.id.job, s.id.number⟩ }
    have hp : E.step (.sys (.task r i (.nextStep b s'))) ≠ none := by
      refine sys_possible rfl ?_
      intro hbad
      simp only [Sys.step, hρ, ht, Option.bind_eq_bind, Option.bind_some, Sys.taskStep] at hbad hx
      cases hq : t.step E.sys.now (.nextStep b s') with
      | some t2 => simp [hq] at hbad
      | none =>
        cases hq2 : t.step E.sys.now (.nextStep b s) with
        | none => simp [hq2] at hx
        | some t2 =>
          simp only [SysTask.step] at hq hq2
          split at hq2 <;> simp_all
          split at hq <;> simp at hq
    obtain ⟨E1, hE1⟩ := Option.ne_none_iff_exists'.1 hp
    refine ⟨_, E1, ?_, hE1, h.snoc hE1 (by simp) ?_, rfl⟩
    · exact loudOf_next s' hy
    · intro r' i' b' s1 e t' ht'
      cases e
      rw [hT] at ht'
      cases ht'
      rfl
  · refine ⟨y, E', hy, hE', h.snoc hE' ?_ fun r i b s e => absurd ⟨r, i, b, s, e⟩ hn, loudOf_neverEnding hy⟩
    rintro wf rfl
    exact loud_no_start hy

theorem loud_idles {setup : EngineSetup} {acts : List EngineAct} {E : LocalEngine} (h : EngineFine setup acts E) :
    ∃ y E', E.step y = some E' ∧ EngineFine setup (acts ++ [y]) E' ∧ neverEnding y = true := by
  have hs : E.step (.sys (.tick 1)) ≠ none := sys_possible rfl (by simp [Sys.step])
  obtain ⟨E', hE'⟩ := Option.ne_none_iff_exists'.1 hs
  exact ⟨_, E', hE', h.snoc hE' (by simp) (by simp), rfl⟩

end CancelFairLem

/-- **C124** Such executions exist, whatever has happened before: every schedule can be continued to an endless execution that treats
all job tasks and the runner's tasks fairly, in which no process ends or closes its output and every process writes again and again. -/
theorem C124_fair_futures (setup : EngineSetup) (acts : List EngineAct) (E : LocalEngine) (h : EngineReach setup acts E)
    (ha : Apart (engineMoves acts)) (hk : EngineHooksKeepJobs setup acts) :
    ∃ f a, EngineEndless setup f a ∧ firstMoves a acts.length = acts ∧ f acts.length = E ∧
      (∀ n, Apart (engineMoves (firstMoves a n))) ∧ (∀ n, EngineHooksKeepJobs setup (firstMoves a n)) ∧
      (∀ n, acts.length ≤ n → neverEnding (a n) = true) ∧
      ∀ r i, WeaklyFair LocalEngine.step f a (engineJobOf r i) ∧ StronglyFair LocalEngine.step f a (engineRecvOf r i) ∧
        StronglyFair LocalEngine.step f a (engineSignalOf r i) ∧ (∀ n, WeaklyFair LocalEngine.step f a (runnerTaskOf r i n)) ∧
        (∀ n, WeaklyFair LocalEngine.step f a (runnerSignalOf r i n)) ∧ (∀ n, StronglyFair LocalEngine.step f a (writesOf r i n)) ∧
        WeaklyFair LocalEngine.step f a (engineMainOf r) := by
  obtain ⟨f, a, f0, hm, hfirst, hfE, hP, hfair⟩ := fair_future (step := LocalEngine.step) (cls := loudKind) (Q := fun _ y => neverEnding y = true)
    (P := EngineFine setup) (fun _ _ _ h hc => loud_moves h hc) (fun _ _ h => loud_idles h) (s00 := LocalEngine.initial setup) h ⟨h, ha, hk⟩
  have hE : EngineEndless setup f a := ⟨f0, hm⟩
  have hpre : ∀ n, Apart (engineMoves (firstMoves a n)) ∧ EngineHooksKeepJobs setup (firstMoves a n) := by
    intro n
    rcases Nat.le_total acts.length n with hn | hn
    · exact (hP n hn).1.2
    · have e : firstMoves a n ++ acts.drop n = acts := by
        have : firstMoves a n = acts.take n := by
          rw [← hfirst]
          simp only [firstMoves, ← List.map_take, List.take_range, Nat.min_eq_left hn]
        rw [this, List.take_append_drop]
      have e3 : engineMoves (firstMoves a n) ++ engineMoves (acts.drop n) = engineMoves acts := by
        conv => rhs; rw [← e]
        simp [engineMoves, List.filterMap_append]
      exact ⟨Apart.prefix (e3 ▸ ha), keepJobs_prefix (e.symm ▸ hk)⟩
  have key : ∀ c r i n, StronglyFair LocalEngine.step f a (loudOf c r i n) := by
    intro c r i n
    have := hfair (kindNo c r i n)
    rwa [loudKind_no] at this
  exact ⟨f, a, hE, hfirst, hfE, fun n => (hpre n).1, fun n => (hpre n).2, fun n hn => (hP n hn).2, fun r i => ⟨weak_of_strong (key 0 r i 0),
    key 1 r i 0, key 2 r i 0, fun n => weak_of_strong (key 3 r i n), fun n => weak_of_strong (key 4 r i n), fun n => key 5 r i n,
    weak_of_strong (key 6 r 0 0)⟩⟩

/-- The second of two workflows is in its step, and nothing has been cancelled. -/
theorem CancelFairLem.two_in_step : ∃ ρ0 t0 s, (EngineEx.after EngineEx.two).sys.runs[1]? = some ρ0 ∧ ρ0.wf = SystemEx.single "w" ∧
    taskAt (EngineEx.after EngineEx.two).sys 1 0 = some t0 ∧ stepOf t0.pc = some s ∧ t0.job.id = ⟨"w", "a"⟩ ∧
    (EngineEx.after EngineEx.two).sys.answers = [] := ⟨_, _, _, rfl, rfl, rfl, rfl, rfl, rfl⟩

/-- The hypotheses are met: a step whose container writes forever is cancelled. -/
example : ∃ f a n0 ρ0 t0 s, EngineEndless EngineEx.setup f a ∧ (∀ n, Apart (engineMoves (firstMoves a n))) ∧
    (∀ n, EngineHooksKeepJobs EngineEx.setup (firstMoves a n)) ∧ (f n0).sys.runs[1]? = some ρ0 ∧ UniqueJobs ρ0.wf ∧ OwnIds ρ0.wf ∧
    NoParallelDependents ρ0.wf ∧ taskAt (f n0).sys 1 0 = some t0 ∧ stepOf t0.pc = some s ∧ a n0 = .sys (.cancel t0.job.id) ∧
    (t0.job.id, true) ∉ (f n0).sys.answers ∧ WeaklyFair LocalEngine.step f a (engineJobOf 1 0) ∧
    StronglyFair LocalEngine.step f a (engineRecvOf 1 0) ∧ StronglyFair LocalEngine.step f a (engineSignalOf 1 0) ∧
    (∀ n, WeaklyFair LocalEngine.step f a (runnerTaskOf 1 0 n)) ∧ (∀ n, WeaklyFair LocalEngine.step f a (runnerSignalOf 1 0 n)) ∧
    ∀ n, StronglyFair LocalEngine.step f a (writesOf 1 0 n) := by
  obtain ⟨ρ0, t0, s, g1, g2, g3, g4, g5, g6⟩ := CancelFairLem.two_in_step
  have hreach : EngineReach EngineEx.setup EngineEx.two (EngineEx.after EngineEx.two) := rfl
  generalize EngineEx.after EngineEx.two = E0 at g1 g3 g6 hreach
  have hp : E0.step (.sys (.cancel ⟨"w", "a"⟩)) ≠ none := sys_possible rfl (by simp [Sys.step])
  obtain ⟨E1, hstep⟩ := Option.ne_none_iff_exists'.1 hp
  have hfine : EngineFine EngineEx.setup (EngineEx.two ++ [.sys (.cancel ⟨"w", "a"⟩)]) E1 :=
    EngineFine.snoc ⟨hreach, EngineEx.apart_two, EngineEx.keeps_two⟩ hstep (by simp) (by simp)
  obtain ⟨f, a, h1, h2, h3, h4, h5, h6, h7⟩ := C124_fair_futures EngineEx.setup _ _ hfine.1 hfine.2.1 hfine.2.2
  obtain ⟨f1, f2, f3, f4, f5, f6, _⟩ := h7 1 0
  rw [List.length_append, List.length_singleton, firstMoves_succ] at h2
  obtain ⟨e1, e2⟩ := List.append_inj' h2 rfl
  have hf : f EngineEx.two.length = E0 := by
    have := endless_engine h1 EngineEx.two.length
    rw [e1] at this
    exact Option.some.inj (this.symm.trans hreach)
  have hjobs : ∀ k j, (k, j) ∈ ρ0.wf.jobs → (k, j) ∈ (SystemEx.single "w").jobs := by
    intro k j h
    rwa [g2] at h
  refine ⟨f, a, EngineEx.two.length, ρ0, t0, s, h1, h4, h5, by rw [hf]; exact g1, ?_, ⟨?_, ?_⟩, ?_, by rw [hf]; exact g3, g4, ?_, ?_,
    f1, f2, f3, f4, f5, f6⟩
  · rw [g2]; exact List.nodup_singleton "a"
  · intro k j k' j' h h' _
    have e : ∀ k j, (k, j) ∈ (SystemEx.single "w").jobs → k = "a" := by
      intro k j h; simp [SystemEx.single] at h; exact h.1
    exact (e k j (hjobs k j h)).trans (e k' j' (hjobs k' j' h')).symm
  · intro k j h s hs
    have := hjobs k j h
    simp [SystemEx.single] at this
    obtain ⟨rfl, rfl⟩ := this
    simp at hs
    subst hs
    rfl
  · intro k j h hd
    have := hjobs k j h
    simp [SystemEx.single] at this
    obtain ⟨rfl, rfl⟩ := this
    exact absurd rfl hd
  · rw [g5]; exact List.singleton_inj.1 e2
  · rw [hf, g6]; simp

end AstroRun
