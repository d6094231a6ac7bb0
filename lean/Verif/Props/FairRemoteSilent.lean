import Verif.Props.FairRemoteCancel

/-! # C127: servers that fall silent but obey signals do not hold a run up -/

namespace AstroRun
open Spec

namespace RemoteSilentLem
open FairLem FairLocalLem FairRemoteLem CancelFairLem SilentLem RemoteCancelLem

/-- What is written to a stream that is read comes from a move of the call. -/
theorem writes_get_on {E : RemoteEngine} {a : RemoteEngineAct} {x0 x1 x2 y : SysAct} (hs : Shadow3 E a x0 x1 x2)
    {r i L : Nat} {t : SysTask} (ht : taskAt E.sys r i = some t) (hur : t.pc.reading = true) (hlen : L + 1 = (E.calls r i).length)
    (hy : y = x0 ∨ y = x1 ∨ y = x2) (hw : IsWrite r i y) : ∃ b, b ∈ callMoves r i L [a] ∧ getsOn b = true := by
  have hsame : ∀ r' i', IsWrite r' i' y → r' = r ∧ i' = i := by
    rintro r' i' (⟨l, rfl⟩ | ⟨z, rfl⟩) <;> rcases hw with ⟨l', hw⟩ | ⟨z', hw⟩ <;> cases hw <;> exact ⟨rfl, rfl⟩
  have hnt : ∀ q, y ≠ .tick q := by
    rintro q rfl
    rcases hw with ⟨l', hw⟩ | ⟨z', hw⟩ <;> cases hw
  have hnb : y.byRunner = true := by rcases hw with ⟨l', rfl⟩ | ⟨z', rfl⟩ <;> rfl
  have hna : ∀ r' i', y ≠ .task r' i' .accept := by
    rintro r' i' rfl
    rcases hw with ⟨l', hw⟩ | ⟨z', hw⟩ <;> cases hw
  cases a with
  | sys b =>
    obtain ⟨e1, e2, e3, e4⟩ := hs
    rcases hy with rfl | rfl | rfl
    · rw [e1, e2] at hnb; cases hnb
    · exact absurd e3 (hnt 0)
    · exact absurd e4 (hnt 0)
  | dispatched r' i' sv =>
    obtain ⟨e1, e2, e3⟩ := hs
    rcases hy with rfl | rfl | rfl
    · exact absurd e1 (hna _ _)
    · exact absurd e2 (hnt 0)
    · exact absurd e3 (hnt 0)
  | noRunner r' i' =>
    obtain ⟨e1, e2, e3, v, st, t0, ref, e4, e5⟩ := hs
    exfalso
    have : r' = r ∧ i' = i := by
      rcases hy with rfl | rfl | rfl
      · exact hsame _ _ e1
      · exact hsame _ _ e2
      · exact absurd e3 (hna _ _)
    obtain ⟨rfl, rfl⟩ := this
    rw [ht] at e4
    cases e4
    rw [e5] at hur
    cases hur
  | net r' i' n' b =>
    rcases hs y hy with e | ⟨e1, e2, e3, _⟩
    · exact absurd e (hnt 0)
    · obtain ⟨rfl, rfl⟩ := hsame _ _ e1
      refine ⟨b, ?_, e2⟩
      have : n' = L := by omega
      simp [callMoves, this]
  | signalFailed r' i' n' b =>
    rcases hs y hy with e | ⟨e1, e3, _⟩
    · exact absurd e (hnt 0)
    · obtain ⟨rfl, rfl⟩ := hsame _ _ e1
      refine ⟨.sigErr, ?_, rfl⟩
      have : n' = L := by omega
      simp [callMoves, this]
  | stepCompleted r' sv res =>
    obtain ⟨e1, e2, e3⟩ := hs
    rcases hy with rfl | rfl | rfl
    · exact absurd e1 (hnt 0)
    · exact absurd e2 (hnt 0)
    · exact absurd e3 (hnt 0)

/-- Timers of the engine, seen by the engine. -/
theorem timer_fair3 {f : Nat → RemoteEngine} {a : Nat → RemoteEngineAct} {x0 x1 x2 : Nat → SysAct} {s1 s2 : Nat → Sys} {r i : Nat}
    (h : WeaklyFair RemoteEngine.step f a (remoteTimerOf r i)) (hxs : ∀ n, Shadow3 (f n) (a n) (x0 n) (x1 n) (x2 n)) :
    WeaklyFair Sys.step (every (fun n => (f n).sys) s1 s2) (every x0 x1 x2) fun y => y = .task r i .timer := by
  rintro ⟨n, hn⟩
  have := h ⟨n, fun m hm => by
    obtain ⟨y, hy, hp⟩ := hn (3 * m) (by omega)
    rw [every_0] at hp
    have hy : y = _ := hy
    subst hy
    exact ⟨_, rfl, rsys_possible rfl hp⟩⟩
  intro n
  obtain ⟨m, hm, hc⟩ := this n
  have hs := hxs m
  rw [show a m = _ from hc] at hs
  exact ⟨3 * m, by omega, by show every x0 x1 x2 (3 * m) = _; rw [every_0]; exact hs.1⟩

/-- The id in a step's result. -/
theorem stepResult_id (id : StepId) (res : RunResult) (t0 now : Time) : (stepResult id res t0 now).id = id := by
  cases res <;> rfl

/-- The step a job task is at, if it is in its loop over the steps. -/
def stepAt : SysPc → Option (List StepId)
  | .emitting _ k => stepAt k
  | .next => some []
  | .queued s _ | .calling s _ _ | .handling s _ _ | .select s _ _ _ => some [s.id]
  | _ => none

/-- Results so far, the current step and the steps to go are those of the job. -/
def IdsOk (t : SysTask) : Prop :=
  ∀ c, stepAt t.pc = some c → t.results.map (·.id) ++ c ++ t.rest.map (·.id) = t.job.steps.map (·.id)

theorem ids_move {g g' : SigMgr} {ρ ρ' : SysRun} {now : Time} {i : Nat} {t t' : SysTask} {b : TaskAct}
    (hlen : i < ρ.tasks.length) (h : Sys.taskStep g ρ now i t b = some (g', ρ')) (ht' : ρ'.tasks[i]? = some t')
    (hkeep : ∀ b' s st rest, b = .nextStep b' s → t.rest = st :: rest → s.id = st.id) (hok : IdsOk t) : IdsOk t' := by
  have got : ∀ u, ρ'.tasks = ρ.tasks.set i u → t' = u := by
    intro u hu
    rw [hu, List.getElem?_set] at ht'
    simp [hlen] at ht'
    exact ht'.symm
  by_cases hn : ∃ b' s, b = .nextStep b' s
  · obtain ⟨b', s, rfl⟩ := hn
    simp only [Sys.taskStep, SysTask.step, Option.map_eq_some_iff, Prod.mk.injEq] at h
    obtain ⟨u, hu, rfl, rfl⟩ := h
    have := got _ rfl
    subst this
    split at hu
    · rename_i st rest hpc hrest
      have hs := hkeep b' s st rest rfl hrest
      have h0 := hok [] (by rw [hpc]; rfl)
      split at hu
      · cases hu
        intro c hc
        simp only [stepAt, SysTask.emitThen, Option.some.injEq] at hc
        subst hc
        simpa [hrest, SysTask.emitThen, skippedResult] using h0
      · cases hu
        intro c hc
        simp only [stepAt, SysTask.emitThen, Option.some.injEq] at hc
        subst hc
        simpa [hrest, SysTask.emitThen, hs] using h0
    · cases hu
  clear hkeep
  cases b <;> simp only [Sys.taskStep, SysTask.step] at h
  all_goals first
    | (exact absurd ⟨_, _, rfl⟩ hn)
    | (simp at h; done)
    | (repeat' split at h
       all_goals first
         | (simp at h; done)
         | (simp only [Option.map_some, Option.some.injEq, Prod.mk.injEq] at h
            obtain ⟨rfl, rfl⟩ := h
            have := got _ rfl
            subst this
            clear got ht'
            first
              | exact hok
              | (intro c hc
                 simp only [stepAt, SysTask.emitThen, SysTask.stepDone, Option.some.injEq, reduceCtorEq] at hc
                 done)
              | (intro c hc
                 simp only [stepAt, SysTask.emitThen, SysTask.stepDone, Option.some.injEq] at hc
                 subst hc
                 simp_all [IdsOk, stepAt, SysTask.emitThen, SysTask.stepDone, stepResult_id, refusedResult]
                 done)
              | (intro c hc
                 simp_all [IdsOk, stepAt, SysTask.emitThen, SysTask.stepDone, stepResult_id, refusedResult]
                 done)))

/-- All job tasks of an engine whose hooks leave ids alone. -/
theorem ids_kept {f : Nat → Sys} {x : Nat → SysAct} (hE : Endless f x)
    (hkeep : ∀ n r i b s t st rest, x n = .task r i (.nextStep b s) → taskAt (f n) r i = some t → t.rest = st :: rest → s.id = st.id) :
    ∀ n r i t, taskAt (f n) r i = some t → IdsOk t := by
  intro n
  induction n with
  | zero => intro r i t ht; rw [hE.start] at ht; simp [taskAt] at ht
  | succ n ih =>
    intro r i t' ht'
    rcases Classical.em (∃ t, taskAt (f n) r i = some t) with ⟨t, ht⟩ | ho
    · rcases task_between (hE.moves n) ht with ⟨h, _⟩ | ⟨b, hb⟩
      · rw [h] at ht'; exact Option.some.inj ht' ▸ ih r i t ht
      · have hs := hE.moves n
        rw [hb] at hs
        obtain ⟨ρ, u, u', hρ, e1, e2, _, g, ρ', e3, e4⟩ := task_act hs
        rw [ht] at e1; cases e1
        rw [ht'] at e2; cases e2
        obtain ⟨ρ2, q1, q2⟩ := taskAt_some ht
        rw [hρ] at q1; cases q1
        refine ids_move (List.getElem?_eq_some_iff.1 q2).1 e3 e4 ?_ (ih r i t ht)
        rintro b' s st rest rfl hr
        exact hkeep n r i b' s t st rest hb ht hr
    · have hm := hE.moves n
      have hfresh : ∃ k j, t' = { key := k, job := j } := by
        by_cases hta : ∃ r i b, x n = .task r i b
        · obtain ⟨r0, i0, b, hb⟩ := hta
          rw [hb] at hm
          rcases sys_step_cases hm with ⟨wf, h1, _⟩ | ⟨n, b', ρ₁, ρ₂, h1, _⟩ |
            ⟨n, j, b', ρ, t, g', ρ', h1, hρ, htt, hmm, e⟩ | ⟨n, h1, _⟩ | ⟨j, x, h1, _⟩
          all_goals cases h1
          obtain ⟨u, e1, _⟩ := taskStep_frame hmm
          have hne : ¬ (r = r0 ∧ i = i0) := by
            rintro ⟨rfl, rfl⟩
            exact ho ⟨t, by simp [taskAt, hρ, htt]⟩
          rw [e, taskAt_set_ne hρ e1 hne] at ht'
          exact absurd ⟨t', ht'⟩ ho
        · rcases taskAt_main hm (fun r i b e => hta ⟨r, i, b, e⟩) r i with e | ⟨_, k, j, e⟩
          · rw [e] at ht'; exact absurd ⟨t', ht'⟩ ho
          · rw [ht'] at e; exact ⟨k, j, Option.some.inj e⟩
      obtain ⟨k, j, rfl⟩ := hfresh
      intro c hc
      simp [stepAt] at hc

/-- A step whose id is not that of an earlier one. -/
theorem ids_apart {t : SysTask} (h : IdsOk t) (hd : (t.job.steps.map (·.id)).Nodup) {s : Step} (hs : stepOf t.pc = some s) :
    ∀ sr ∈ t.results, sr.id ≠ s.id := by
  intro sr hsr he
  have hc : stepAt t.pc = some [s.id] := by
    revert hs
    cases t.pc with
    | emitting es k => cases k <;> first | (simp [stepOf]; done) | (simp only [stepOf, stepAt, Option.some.injEq]; rintro rfl; rfl)
    | _ => first | (simp [stepOf]; done) | (simp only [stepOf, stepAt, Option.some.injEq]; rintro rfl; rfl)
  rw [← h _ hc] at hd
  have := (List.nodup_append.1 (List.nodup_append.1 hd).1).2.2 sr.id (List.mem_map.2 ⟨sr, hsr, rfl⟩) s.id (by simp)
  exact this he

end RemoteSilentLem

open FairLem FairLocalLem FairRemoteLem CancelFairLem SilentLem RemoteCancelLem RemoteSilentLem

/-- The same with a condition on the ids of steps as they are run. -/
theorem RemoteSilentLem.silent_returns (f : Nat → RemoteEngine) (a : Nat → RemoteEngineAct) (hE : RemoteEndless f a)
    (hap : ∀ n, Apart (remoteEngineMoves (firstMoves a n))) (hk : ∀ n, RemoteEngineHooksKeepJobs (firstMoves a n)) (r n0 : Nat) (ρ0 : SysRun)
    (hr0 : (f n0).sys.runs[r]? = some ρ0) (hu : UniqueJobs ρ0.wf) (ho : OwnIds ρ0.wf) (hd : DepsDefined ρ0.wf) (hac : Acyclic ρ0.wf)
    (hne : ρ0.wf.jobs ≠ []) (honce : ∀ n ρ k, n0 ≤ n → (f n).sys.runs[r]? = some ρ → StartedOnce ρ k) (hids : ∀ n i t s, taskAt (f n).sys r i = some t → stepOf t.pc = some s → ∀ sr ∈ t.results, sr.id ≠ s.id)
    (hmain : WeaklyFair RemoteEngine.step f a (remoteMainOf r)) (hjob : ∀ i, WeaklyFair RemoteEngine.step f a (remoteJobOf r i))
    (hrecv : ∀ i, StronglyFair RemoteEngine.step f a (remoteRecvOf r i)) (htimer : ∀ i, WeaklyFair RemoteEngine.step f a (remoteTimerOf r i))
    (hcall : ∀ i n, WeaklyFair RemoteEngine.step f a (callOf r i n)) (hclient : ∀ i n, WeaklyFair RemoteEngine.step f a (clientOf r i n))
    (hlost : BreaksNoticed f r) (htime : RemoteTimePasses f) (hsilent : ServersFallSilent a r) (hobey : ServersObey f a r) :
    ∃ n ρ res, n0 ≤ n ∧ (f n).sys.runs[r]? = some ρ ∧ ρ.pc = .returned res := by
  refine remote_returns f a hE hap hk r n0 ρ0 hr0 hu ho hd hac hne hmain hjob hrecv hcall hlost ?_
  intro i L K0 hread0
  obtain ⟨N1, hN1⟩ := hsilent i L
  have htold : ∃ k, ServerTold (f k) r i L := by
    apply Classical.byContradiction
    intro hnever
    obtain ⟨x0, x1, x2, s1, s2, hx, hxs, hE', hap', hk'⟩ := shadow_three hE hap hk
    have hover := ended_noticed (N := K0) (L := L) hE hap hk (hjob i) (hrecv i) hread0
    have hwork : WeaklyFair Sys.step _ _ (workOf r i) := work_fair3 (s1 := s1) (s2 := s2) (hjob i) hxs
    have htimer' := timer_fair3 (s1 := s1) (s2 := s2) (htimer i) hxs
    have hrecv' : StronglyFair Sys.step _ _ (recvOf r i) := branch_fair3 rfl (fun _ _ _ h1 h2 h3 => recv_stays h1 h2 h3) (hrecv i) hx hxs
    have hread := read_between (s1 := s1) (s2 := s2) (r := r) (i := i) (N := K0) hx hxs fun n hn => by
      obtain ⟨t, h1, h2, _⟩ := hread0 n hn
      exact ⟨t, h1, h2⟩
    have F0 : ∀ n, every (fun n => (f n).sys) s1 s2 (3 * n) = (f n).sys := every_0 _ _ _
    have X0 : ∀ n, every x0 x1 x2 (3 * n) = x0 n := every_0 _ _ _
    have X1 : ∀ n, every x0 x1 x2 (3 * n + 1) = x1 n := every_1 _ _ _
    have X2 : ∀ n, every x0 x1 x2 (3 * n + 2) = x2 n := every_2 _ _ _
    generalize every (fun n => (f n).sys) s1 s2 = F at *
    generalize every x0 x1 x2 = X at *
    have hxk := hE'.moves
    -- there is a call
    obtain ⟨xN, hxN⟩ : ∃ x, callAt (f K0) r i L = some x := by
      obtain ⟨_, _, _, hl⟩ := hread0 K0 (Nat.le_refl _)
      cases hq : ((f K0).calls r i)[L]? with
      | none => simp at hq; omega
      | some q =>
        cases q with
        | some x => exact ⟨x, callAt_iff.2 hq⟩
        | none =>
          exfalso
          refine hover K0 (Nat.le_refl _) fun n hn => .inl ?_
          obtain ⟨d, rfl⟩ := Nat.exists_eq_add_of_le hn
          clear hn
          induction d with
          | zero => exact hq
          | succ d ih => exact none_stays (hE.moves (K0 + d)) ih
    have hcallAt : ∀ n, K0 ≤ n → ∃ x, callAt (f n) r i L = some x := by
      intro n hn
      obtain ⟨d, rfl⟩ := Nat.exists_eq_add_of_le hn
      obtain ⟨x', h1, _⟩ := srv_follows hE hxN d
      exact ⟨x', h1⟩
    -- it gets no further at some time
    have hstop : ∃ K, K0 ≤ K ∧ N1 ≤ K ∧ ∀ k b, K ≤ k → b ∈ callMoves r i L [a k] → getsOn b = false := by
      apply Classical.byContradiction
      intro hno
      let w : Nat → Nat := fun k => ((callAt (f k) r i L).map fun y => callWork y.net).getD 0
      have hw : ∀ k, K0 + N1 ≤ k → w (k + 1) ≤ w k ∧ ∀ b, b ∈ callMoves r i L [a k] → getsOn b = true → w (k + 1) < w k := by
        intro k hk
        obtain ⟨x, hx⟩ := hcallAt k (by omega)
        obtain ⟨x', h1, h2, h3, _⟩ := call_move (hE.moves k) hx (hN1 k (by omega))
        simp only [w, hx, h1, Option.map_some, Option.getD_some]
        exact ⟨h2, h3⟩
      refine no_descent w (K0 + N1) (fun k hk => (hw k hk).1) ?_
      intro k hk
      apply Classical.byContradiction
      intro hnd
      refine hno ⟨k, by omega, by omega, fun j b hj hb => ?_⟩
      rcases Bool.eq_false_or_eq_true (getsOn b) with hg | hg
      · exact absurd ⟨j, hj, (hw j (by omega)).2 b hb hg⟩ hnd
      · exact hg
    obtain ⟨K, hK1, hK2, hK⟩ := hstop
    have hnopush : ∀ q l, 3 * K ≤ q → X q ≠ .task r i (.push l) := by
      intro q l hq he
      obtain ⟨n, hn, hy⟩ : ∃ n, K ≤ n ∧ (X q = x0 n ∨ X q = x1 n ∨ X q = x2 n) := by
        obtain ⟨n, rfl | rfl | rfl⟩ := three_cases q
        · exact ⟨n, by omega, .inl (X0 n)⟩
        · exact ⟨n, by omega, .inr (.inl (X1 n))⟩
        · exact ⟨n, by omega, .inr (.inr (X2 n))⟩
      obtain ⟨t, h1, h2, h3⟩ := hread0 n (by omega)
      obtain ⟨b, hb1, hb2⟩ := writes_get_on (hxs n) h1 h2 h3 hy (.inl ⟨l, he⟩)
      rw [hK n b hn hb1] at hb2
      cases hb2
    -- the stream does not end
    have hopen : ∀ q t, 3 * K ≤ q → taskAt (F q) r i = some t → t.stream.result = none := by
      intro q t hq ht
      cases hres : t.stream.result with
      | none => rfl
      | some v =>
        exfalso
        refine notices_the_end hE' (K := q) hwork hrecv' (ended_stays hE' (fun k hk => hread k (by omega)) ?_) fun k l hk => hnopush k l (by omega)
        intro t' ht'
        rw [ht] at ht'; cases ht'
        rw [hres]; simp
    obtain ⟨k0, t0, hk0, ht0, hs0⟩ := times_out (f := F) (x := X) hxk (fun T => by
        obtain ⟨n, hn⟩ := htime T
        exact ⟨3 * n, by rw [F0]; exact hn⟩) (r := r) (i := i) (K := 3 * K) hwork htimer' (fun k hk => by
        obtain ⟨t, h1, h2⟩ := hread k (by omega)
        exact ⟨t, h1, h2, hopen k t hk h1⟩) hnopush
    have hsg : ∀ k, k0 ≤ k → ∃ t, taskAt (F k) r i = some t ∧ t.sig.signal ≠ none := by
      intro k hk
      induction k with
      | zero => rw [Nat.le_zero.1 hk] at ht0; exact ⟨t0, ht0, hs0⟩
      | succ k ih =>
        rcases Nat.lt_or_ge k k0 with h | h
        · have e : k0 = k + 1 := by omega
          rw [e] at ht0; exact ⟨t0, ht0, hs0⟩
        · obtain ⟨u, hu, hs⟩ := ih h
          obtain ⟨u', hu', hr'⟩ := hread (k + 1) (by omega)
          refine ⟨u', hu', ?_⟩
          rcases task_between (hxk k) hu with ⟨h1, _⟩ | ⟨b, hb⟩
          · rw [h1] at hu'; cases hu'; exact hs
          · have hst := hxk k
            rw [hb] at hst
            obtain ⟨ρ, v, v', hρ, h1, h2, _, g, ρ', h3, h4⟩ := task_act hst
            rw [hu] at h1; cases h1
            rw [hu'] at h2; cases h2
            exact signal_stays h3 h4 hs hr'
    obtain ⟨n, x, v, hn, h1, h2⟩ := told_at_last (N := K0 + k0 + n0) (L := L) hE hap hk (hjob i) (hrecv i) (hclient i) fun n hn => by
      obtain ⟨t, h1, h2, h3⟩ := hread0 n (by omega)
      obtain ⟨t', h1', h4⟩ := hsg (3 * n) (by omega)
      rw [F0, h1] at h1'; cases h1'
      obtain ⟨st, D, o, H, a1, _⟩ := (rpair (endless_remote hE n) h1).link h2
      refine ⟨t, st, h1, h2, h4, a1, h3, ?_⟩
      have hsa := endless_reach hE' (3 * n)
      obtain ⟨ρ, h5, h6⟩ := taskAt_some h1
      obtain ⟨ρ', h7, h8⟩ := wf_stays hE' hap' (show 3 * n0 ≤ 3 * n by omega) (show (F (3 * n0)).runs[r]? = some ρ0 by rw [F0]; exact hr0)
      rw [F0, h5] at h7; cases h7
      have hno := C104_only_run_once (firstMoves X (3 * n)) (F (3 * n)) hsa (hap' _) r ρ (by rw [F0]; exact h5)
        (by rw [h8]; exact ho) i t (by rw [F0]; exact h1) (honce n ρ _ (by omega) h5)
      rw [F0] at hsa hno
      exact OnlyCallLem.only_call (endless_remote hE n) hsa (hk' _) h1 hno ⟨t, h1, h2, a1, h3⟩ (hids n i t st h1 a1)
    exact hnever ⟨n, x, v, h1, h2⟩
  obtain ⟨k, hk⟩ := htold
  obtain ⟨N2, hN2⟩ := hobey i L k hk
  exact ⟨N1 + N2, fun m hm => ⟨hN2 m (by omega), hN1 m (by omega)⟩⟩

/-- Steps of a run have ids of their own, if those of its workflow have and hooks leave them alone. -/
theorem RemoteSilentLem.steps_apart {f : Nat → RemoteEngine} {a : Nat → RemoteEngineAct} (hE : RemoteEndless f a)
    (hap : ∀ n, Apart (remoteEngineMoves (firstMoves a n))) (hk : ∀ n, RemoteEngineHooksKeepJobs (firstMoves a n))
    (hids : ∀ n, RemoteHooksKeepIds (firstMoves a n)) {r n0 : Nat} {ρ0 : SysRun} (hr0 : (f n0).sys.runs[r]? = some ρ0)
    (hsteps : DistinctSteps ρ0.wf) :
    ∀ n i t s, taskAt (f n).sys r i = some t → stepOf t.pc = some s → ∀ sr ∈ t.results, sr.id ≠ s.id := by
  intro n i t s ht hs
  obtain ⟨x0, x1, x2, s1, s2, hx, hxs, hE', hap', hk'⟩ := shadow_three hE hap hk
  have F0 : ∀ n, every (fun n => (f n).sys) s1 s2 (3 * n) = (f n).sys := every_0 _ _ _
  have X0 : ∀ n, every x0 x1 x2 (3 * n) = x0 n := every_0 _ _ _
  have X1 : ∀ n, every x0 x1 x2 (3 * n + 1) = x1 n := every_1 _ _ _
  have X2 : ∀ n, every x0 x1 x2 (3 * n + 2) = x2 n := every_2 _ _ _
  generalize every (fun n => (f n).sys) s1 s2 = F at *
  generalize every x0 x1 x2 = X at *
  have hok := ids_kept hE' (by
    intro q r i b s t st rest he h1 hr
    obtain ⟨n, rfl | rfl | rfl⟩ := three_cases q
    · obtain ⟨g1, g2⟩ := shadow_hidden (hxs n)
      rw [X0] at he
      rw [F0] at h1
      by_cases hb : ∃ c, a n = .sys c
      · obtain ⟨c, hc⟩ := hb
        have := (g2 c hc).1
        rw [he] at this
        subst this
        have := hids (n + 1)
        rw [firstMoves_succ, hc] at this
        exact this (firstMoves a n) r i b s [] rfl (f n) (endless_remote hE n) t st rest h1 hr
      · exact absurd he ((hidden_quiet (g1 _ (.inr (.inr ⟨fun c e => hb ⟨c, e⟩, rfl⟩)))).2 r i b s)
    · rw [X1] at he
      exact absurd he ((hidden_quiet ((shadow_hidden (hxs n)).1 _ (.inl rfl))).2 r i b s)
    · rw [X2] at he
      exact absurd he ((hidden_quiet ((shadow_hidden (hxs n)).1 _ (.inr (.inl rfl)))).2 r i b s)) (3 * n) r i t (by rw [F0]; exact ht)
  obtain ⟨ρ, h1, h2⟩ := taskAt_some ht
  have hw : ρ.wf = ρ0.wf := by
    rcases Nat.le_total n n0 with h | h
    · obtain ⟨ρ', e1, e2⟩ := wf_stays hE' hap' (show 3 * n ≤ 3 * n0 by omega) (show (F (3 * n)).runs[r]? = some ρ by rw [F0]; exact h1)
      rw [F0, hr0] at e1; cases e1; exact e2.symm
    · obtain ⟨ρ', e1, e2⟩ := wf_stays hE' hap' (show 3 * n0 ≤ 3 * n by omega) (show (F (3 * n0)).runs[r]? = some ρ0 by rw [F0]; exact hr0)
      rw [F0, h1] at e1; cases e1; exact e2
  have hsa := endless_reach hE' (3 * n)
  rw [F0] at hsa
  have hj := (runJobs_reach hsa r ρ h1).tasks i t h2
  exact ids_apart hok (hsteps _ _ (hw ▸ hj)) hs

/-- No job is started twice in workflows in which every job with dependencies is an ancestor or a descendant of every other. -/
theorem RemoteSilentLem.started_once {f : Nat → RemoteEngine} {a : Nat → RemoteEngineAct} (hE : RemoteEndless f a)
    (hap : ∀ n, Apart (remoteEngineMoves (firstMoves a n))) (hk : ∀ n, RemoteEngineHooksKeepJobs (firstMoves a n)) {r n0 : Nat} {ρ0 : SysRun}
    (hr0 : (f n0).sys.runs[r]? = some ρ0) (hu : UniqueJobs ρ0.wf) (hc : NoParallelDependents ρ0.wf) {n : Nat} {ρ : SysRun} (hn : n0 ≤ n)
    (h : (f n).sys.runs[r]? = some ρ) (k : Id) : StartedOnce ρ k := by
  obtain ⟨x0, x1, x2, s1, s2, hx, hxs, hE', hap', hk'⟩ := shadow_three hE hap hk
  have F0 : ∀ n, every (fun n => (f n).sys) s1 s2 (3 * n) = (f n).sys := every_0 _ _ _
  obtain ⟨ρ', h5, h6⟩ := wf_stays hE' hap' (show 3 * n0 ≤ 3 * n by omega)
    (show (every (fun n => (f n).sys) s1 s2 (3 * n0)).runs[r]? = some ρ0 by rw [F0]; exact hr0)
  rw [F0, h] at h5; cases h5
  exact C02_started_once_partial _ _ (endless_reach hE' (3 * n)) (hap' (3 * n)) r ρ (by rw [F0]; exact h) (h6 ▸ hu) (h6 ▸ hc) k

/-- **C127** (for workflows of any shape, if no job is started twice) An engine on the remote runner, in any endless execution, whatever its users, its other workflows and the network do: if time
passes, the tasks of a run and its clients' tasks, the transport and the servers' tasks of its calls are not starved, the `select!` of a
step ignores neither its stream nor its timer forever, broken connections are noticed, every runner on a server writes finitely many lines
and those that get a signal end their streams (or their tasks die), and no two steps of a job have the same id, then the run
returns: a server that falls silent without ever ending its stream does not hold it up, as the step is timed out and the server told. -/
theorem C127_silent_servers_runs_return_once (f : Nat → RemoteEngine) (a : Nat → RemoteEngineAct) (hE : RemoteEndless f a)
    (hap : ∀ n, Apart (remoteEngineMoves (firstMoves a n))) (hk : ∀ n, RemoteEngineHooksKeepJobs (firstMoves a n))
    (hids : ∀ n, RemoteHooksKeepIds (firstMoves a n)) (r n0 : Nat) (ρ0 : SysRun)
    (hr0 : (f n0).sys.runs[r]? = some ρ0) (hu : UniqueJobs ρ0.wf) (ho : OwnIds ρ0.wf) (hd : DepsDefined ρ0.wf) (hac : Acyclic ρ0.wf)
    (hne : ρ0.wf.jobs ≠ []) (honce : ∀ n ρ k, n0 ≤ n → (f n).sys.runs[r]? = some ρ → StartedOnce ρ k)
    (hsteps : DistinctSteps ρ0.wf)
    (hmain : WeaklyFair RemoteEngine.step f a (remoteMainOf r)) (hjob : ∀ i, WeaklyFair RemoteEngine.step f a (remoteJobOf r i))
    (hrecv : ∀ i, StronglyFair RemoteEngine.step f a (remoteRecvOf r i)) (htimer : ∀ i, WeaklyFair RemoteEngine.step f a (remoteTimerOf r i))
    (hcall : ∀ i n, WeaklyFair RemoteEngine.step f a (callOf r i n)) (hclient : ∀ i n, WeaklyFair RemoteEngine.step f a (clientOf r i n))
    (hlost : BreaksNoticed f r) (htime : RemoteTimePasses f) (hsilent : ServersFallSilent a r) (hobey : ServersObey f a r) :
    ∃ n ρ res, n0 ≤ n ∧ (f n).sys.runs[r]? = some ρ ∧ ρ.pc = .returned res := by
  refine silent_returns f a hE hap hk r n0 ρ0 hr0 hu ho hd hac hne honce ?_ hmain hjob hrecv htimer hcall hclient hlost htime hsilent hobey
  exact steps_apart hE hap hk hids hr0 hsteps

/-- **C127** An engine on the remote runner, in any endless execution, whatever its users, its other workflows and the network do: if time
passes, the tasks of a run and its clients' tasks, the transport and the servers' tasks of its calls are not starved, the `select!` of a
step ignores neither its stream nor its timer forever, broken connections are noticed, every runner on a server writes finitely many lines
and those that get a signal end their streams (or their tasks die), and no two steps of a job have the same id, then the run
returns: a server that falls silent without ever ending its stream does not hold it up, as the step is timed out and the server told. -/
theorem C127_silent_servers_runs_return (f : Nat → RemoteEngine) (a : Nat → RemoteEngineAct) (hE : RemoteEndless f a)
    (hap : ∀ n, Apart (remoteEngineMoves (firstMoves a n))) (hk : ∀ n, RemoteEngineHooksKeepJobs (firstMoves a n))
    (hids : ∀ n, RemoteHooksKeepIds (firstMoves a n)) (r n0 : Nat) (ρ0 : SysRun)
    (hr0 : (f n0).sys.runs[r]? = some ρ0) (hu : UniqueJobs ρ0.wf) (ho : OwnIds ρ0.wf) (hd : DepsDefined ρ0.wf) (hac : Acyclic ρ0.wf)
    (hne : ρ0.wf.jobs ≠ []) (hc : NoParallelDependents ρ0.wf) (hsteps : DistinctSteps ρ0.wf)
    (hmain : WeaklyFair RemoteEngine.step f a (remoteMainOf r)) (hjob : ∀ i, WeaklyFair RemoteEngine.step f a (remoteJobOf r i))
    (hrecv : ∀ i, StronglyFair RemoteEngine.step f a (remoteRecvOf r i)) (htimer : ∀ i, WeaklyFair RemoteEngine.step f a (remoteTimerOf r i))
    (hcall : ∀ i n, WeaklyFair RemoteEngine.step f a (callOf r i n)) (hclient : ∀ i n, WeaklyFair RemoteEngine.step f a (clientOf r i n))
    (hlost : BreaksNoticed f r) (htime : RemoteTimePasses f) (hsilent : ServersFallSilent a r) (hobey : ServersObey f a r) :
    ∃ n ρ res, n0 ≤ n ∧ (f n).sys.runs[r]? = some ρ ∧ ρ.pc = .returned res := by
  refine C127_silent_servers_runs_return_once f a hE hap hk hids r n0 ρ0 hr0 hu ho hd hac hne (fun n ρ k hn h => ?_) hsteps hmain hjob hrecv
    htimer hcall hclient hlost htime hsilent hobey
  exact started_once hE hap hk hr0 hu hc hn h k

namespace RemoteSilentLem
open FairSched

/-- Signals are not taken back from servers. -/
theorem told_move {E E' : RemoteEngine} {a : RemoteEngineAct} (hs : E.step a = some E') {r i n : Nat} (h : ServerTold E r i n) :
    ServerTold E' r i n := by
  obtain ⟨x, v, hx, hv⟩ := h
  rw [callAt_iff] at hx
  have hlt := (List.getElem?_eq_some_iff.1 hx).1
  have fin : ∀ y : RemoteExec, (E'.calls r i)[n]? = some (some y) → y.remote.signal ≠ none → ServerTold E' r i n := by
    intro y hy hne
    obtain ⟨w, hw⟩ := Option.ne_none_iff_exists'.1 hne
    exact ⟨y, w, callAt_iff.2 hy, hw⟩
  have hvn : x.remote.signal ≠ none := by rw [hv]; simp
  -- a call moves
  have moved : ∀ (r' i' n' : Nat) (x' : RemoteExec) (m : RemoteRun), (E.calls r' i')[n']? = some (some x') →
      ∃ y : RemoteExec, ((E.moved r' i' n' x' m).calls r i)[n]? = some (some y) ∧ y.remote.signal ≠ none := by
    intro r' i' n' x' m hx'
    simp only [RemoteEngine.moved, updCalls]
    split
    · rename_i he
      obtain ⟨rfl, rfl⟩ := he
      by_cases hn : n' = n
      · subst hn
        rw [hx] at hx'
        cases hx'
        exact ⟨_, List.getElem?_set_self hlt, hvn⟩
      · exact ⟨x, by rw [List.getElem?_set_ne hn]; exact hx, hvn⟩
    · exact ⟨x, hx, hvn⟩
  have arrives : ∀ (E1 : RemoteEngine) (sv : Id) (st : StepId) (w : Signal),
      (∃ y : RemoteExec, (E1.calls r i)[n]? = some (some y) ∧ y.remote.signal ≠ none) →
      ∃ y : RemoteExec, ((E1.signalArrives sv st w).calls r i)[n]? = some (some y) ∧ y.remote.signal ≠ none := by
    rintro E1 sv st w ⟨y, hy, hne⟩
    simp only [RemoteEngine.signalArrives]
    split
    · rename_i r' i' n' _
      simp only [updCalls]
      split
      · simp only [List.getElem?_modify, hy]
        split
        · exact ⟨_, rfl, set_signal_some _ _⟩
        · exact ⟨y, rfl, hne⟩
      · exact ⟨y, hy, hne⟩
    · exact ⟨y, hy, hne⟩
  cases a with
  | sys b =>
    simp only [RemoteEngine.step] at hs
    split at hs
    · cases hs
    · simp only [Option.map_eq_some_iff] at hs
      obtain ⟨M, hM, rfl⟩ := hs
      have : ∃ y : RemoteExec, ((E.shared M b) r i)[n]? = some (some y) ∧ y.remote.signal ≠ none := by
        cases b with
        | task r' i' b' =>
          simp only [RemoteEngine.shared]
          cases E.sys.jobTask r' i' with
          | none => exact ⟨x, hx, hvn⟩
          | some t =>
            cases M.jobTask r' i' with
            | none => exact ⟨x, hx, hvn⟩
            | some t' =>
              simp only
              by_cases hrd : t.pc.reading = true
              · rw [if_pos hrd]
                simp only [updCalls]
                by_cases he : r = r' ∧ i = i'
                · rw [if_pos he, List.getElem?_modify, hx]
                  split
                  · exact ⟨_, rfl, hvn⟩
                  · exact ⟨x, rfl, hvn⟩
                · rw [if_neg he]; exact ⟨x, hx, hvn⟩
              · rw [if_neg hrd]; exact ⟨x, hx, hvn⟩
        | _ => exact ⟨x, hx, hvn⟩
      obtain ⟨y, h1, h2⟩ := this
      exact fin y h1 h2
  | dispatched r' i' sv =>
    simp only [RemoteEngine.step] at hs
    split at hs
    · simp only [Option.map_eq_some_iff] at hs
      obtain ⟨M, hM, rfl⟩ := hs
      refine fin x ?_ hvn
      simp only [updCalls]
      split
      · rw [List.getElem?_append_left hlt]; exact hx
      · exact hx
    · cases hs
  | noRunner r' i' =>
    simp only [RemoteEngine.step] at hs
    split at hs
    · simp only [Option.map_eq_some_iff] at hs
      obtain ⟨M, hM, rfl⟩ := hs
      refine fin x ?_ hvn
      simp only [updCalls]
      split
      · rw [List.getElem?_append_left hlt]; exact hx
      · exact hx
    · cases hs
  | net r' i' n' b =>
    simp only [RemoteEngine.step] at hs
    split at hs
    · rename_i x' hx'
      split at hs
      · cases hs
      · simp only [Option.map_eq_some_iff] at hs
        obtain ⟨m, hm, rfl⟩ := hs
        have hmv := moved r' i' n' x' m hx'
        split at fin
        · obtain ⟨y, h1, h2⟩ := hmv; exact fin y h1 h2
        · obtain ⟨y, h1, h2⟩ := hmv; exact fin y h1 h2
        · split at fin
          · obtain ⟨y, h1, h2⟩ := arrives _ _ _ _ hmv; exact fin y h1 h2
          · obtain ⟨y, h1, h2⟩ := hmv; exact fin y h1 h2
        · obtain ⟨y, h1, h2⟩ := hmv; exact fin y h1 h2
    · cases hs
  | signalFailed r' i' n' b =>
    simp only [RemoteEngine.step] at hs
    split at hs
    · rename_i x' hx'
      simp only [Option.map_eq_some_iff] at hs
      obtain ⟨m, hm, rfl⟩ := hs
      have hmv := moved r' i' n' x' m hx'
      split at fin
      · obtain ⟨y, h1, h2⟩ := arrives _ _ _ _ hmv; exact fin y h1 h2
      · obtain ⟨y, h1, h2⟩ := hmv; exact fin y h1 h2
    · cases hs
  | stepCompleted r' sv res =>
    simp only [RemoteEngine.step] at hs
    split at hs
    · split at hs
      · cases hs; exact fin x hx hvn
      · cases hs
    · cases hs

theorem told_later {f : Nat → RemoteEngine} {a : Nat → RemoteEngineAct} (hE : RemoteEndless f a) {r i n k : Nat}
    (h : ServerTold (f k) r i n) (d : Nat) : ServerTold (f (k + d)) r i n := by
  induction d with
  | zero => exact h
  | succ d ih => exact told_move (hE.moves (k + d)) ih

/-- Runners on servers that are told and get to end their streams do so. -/
theorem servers_obey {f : Nat → RemoteEngine} {a : Nat → RemoteEngineAct} (hE : RemoteEndless f a) (r : Nat)
    (h4 : ∀ i n, StronglyFair RemoteEngine.step f a fun y => y = .net r i n .rpcOk)
    (h5 : ∀ i n, (Often fun k => ServerTold (f k) r i n ∧ ∃ y, (∃ z, y = .net r i n (.runnerEnd z)) ∧ (f k).step y ≠ none) →
      Often fun k => ∃ z, a k = .net r i n (.runnerEnd z)) : ServersObey f a r := by
  intro i n k htold
  obtain ⟨x, v, hx, hv⟩ := htold
  have later : ∀ m, k ≤ m → ∃ x', callAt (f m) r i n = some x' := by
    intro m hm
    obtain ⟨d, rfl⟩ := Nat.exists_eq_add_of_le hm
    obtain ⟨x', h1, -⟩ := srv_follows hE hx d
    exact ⟨x', h1⟩
  obtain ⟨m, y, hm, hy, hsrv⟩ : ∃ m y, k ≤ m ∧ callAt (f m) r i n = some y ∧ y.net.srv ≠ .idle := by
    refine Classical.byContradiction fun hno => ?_
    have hidle : ∀ m y, k ≤ m → callAt (f m) r i n = some y → y.net.srv = .idle := fun m y hm hy =>
      Classical.byContradiction fun hne => hno ⟨m, y, hm, hy, hne⟩
    have hposs : ∀ m y, k ≤ m → callAt (f m) r i n = some y → y.net.step .rpcOk = some { y.net with cli := .streaming, srv := .starting } := by
      intro m y hm hy
      have hi := hidle m y hm hy
      obtain ⟨na, h1, -⟩ := callAt_reach (endless_remote hE m) hy
      simp [RemoteRun.step, hi, ((remote_reach h1).idle hi).2.2]
    obtain ⟨m, hm, hy⟩ := h4 i n (fun m => ⟨max k m, Nat.le_max_right _ _, _, rfl, by
      obtain ⟨y, hy⟩ := later (max k m) (Nat.le_max_left _ _)
      exact net_possible hy rfl (by rw [hposs _ _ (Nat.le_max_left _ _) hy]; simp)⟩) k
    obtain ⟨y, hy'⟩ := later m hm
    have hmv := hE.moves m
    rw [hy] at hmv
    obtain ⟨y', g1, g2⟩ := call_net hmv hy'
    have hnow := hidle (m + 1) y' (by omega) g1
    rw [hposs m y hm hy'] at g2
    rw [← Option.some.inj g2] at hnow
    cases hnow
  have keep : ∀ q, m ≤ q → ∃ x', callAt (f q) r i n = some x' ∧ x'.net.srv ≠ .idle := by
    intro q hq
    obtain ⟨d, rfl⟩ := Nat.exists_eq_add_of_le hq
    obtain ⟨x', h1, h2⟩ := srv_follows hE hy d
    exact ⟨x', h1, h2 hsrv⟩
  obtain ⟨q, hq, z, hz⟩ := h5 i n (fun q => ⟨max m q, Nat.le_max_right _ _, by
      obtain ⟨d, hd⟩ := Nat.exists_eq_add_of_le (show k ≤ max m q from Nat.le_trans hm (Nat.le_max_left _ _))
      rw [hd]
      exact told_later hE ⟨x, v, hx, hv⟩ d, .net r i n (.runnerEnd .succeeded), ⟨_, rfl⟩, by
      obtain ⟨x', h1, h2⟩ := keep (max m q) (Nat.le_max_left _ _)
      exact net_possible h1 rfl (by simp [RemoteRun.step, h2])⟩) m
  refine ⟨q + 1, fun p hp x' hx' => .inl ?_⟩
  refine runnerResult_some (z := z) ?_
  obtain ⟨d, rfl⟩ := Nat.exists_eq_add_of_le (show q + 1 ≤ p by omega)
  have e : firstMoves a (q + 1 + d) = firstMoves a q ++ [a q] ++ ((List.range d).map fun j => a (q + 1 + j)) := by
    simp only [firstMoves]
    rw [List.range_add, List.map_append, List.range_succ, List.map_append, List.map_map]
    rfl
  rw [e, hz]
  simp [callMoves]

/-- A schedule with its end, whose runs are apart and whose hooks leave ids alone. -/
def IdsFine (acts : List RemoteEngineAct) (E : RemoteEngine) : Prop := RemoteFine acts E ∧ RemoteHooksKeepIds acts

theorem IdsFine.snoc {acts : List RemoteEngineAct} {E E' : RemoteEngine} {y : RemoteEngineAct} (h : IdsFine acts E)
    (hf : RemoteFine (acts ++ [y]) E')
    (h2 : ∀ r i b s, y = .sys (.task r i (.nextStep b s)) → ∀ t st rest, taskAt E.sys r i = some t → t.rest = st :: rest → s.id = st.id) :
    IdsFine (acts ++ [y]) E' := by
  refine ⟨hf, ?_⟩
  intro pre r i b s post he E1 hE1 t st rest ht hr
  rcases List.eq_nil_or_concat post with rfl | ⟨post', x, rfl⟩
  · obtain ⟨rfl, hx⟩ := List.append_inj' he rfl
    simp only [List.cons.injEq, and_true] at hx
    have : E1 = E := by
      have h1 := h.1.1
      unfold RemoteEngineReach at h1 hE1
      rw [h1] at hE1
      exact (Option.some.inj hE1).symm
    subst this
    exact h2 r i b s hx t st rest ht hr
  · have : acts ++ [y] = (pre ++ RemoteEngineAct.sys (.task r i (.nextStep b s)) :: post') ++ [x] := by simpa using he
    obtain ⟨rfl, _⟩ := List.append_inj' this rfl
    exact h.2 pre r i b s post' rfl E1 hE1 t st rest ht hr

theorem keepIds_prefix {p q : List RemoteEngineAct} (h : RemoteHooksKeepIds (p ++ q)) : RemoteHooksKeepIds p :=
  fun pre r i b s post he => h pre r i b s (post ++ q) (by rw [he]; simp)

/-- As before, and the workflows started have ids of their own. -/
def SilentFine (acts : List RemoteEngineAct) (E : RemoteEngine) : Prop :=
  IdsFine acts E ∧ ∀ wf ∈ Spec.started (remoteEngineMoves acts), OwnIds wf

theorem SilentFine.snoc {acts : List RemoteEngineAct} {E E' : RemoteEngine} {y : RemoteEngineAct} (h : SilentFine acts E)
    (hs : E.step y = some E') (h0 : ∀ wf, y ≠ .sys (.start wf))
    (h1 : ∀ r i b s, y = .sys (.task r i (.nextStep b s)) → ∀ t, taskAt E.sys r i = some t → s.id.jobId = t.job.id)
    (h2 : ∀ r i b s, y = .sys (.task r i (.nextStep b s)) → ∀ t st rest, taskAt E.sys r i = some t → t.rest = st :: rest → s.id = st.id) :
    SilentFine (acts ++ [y]) E' := by
  refine ⟨h.1.snoc (h.1.1.snoc hs h0 h1) h2, ?_⟩
  have : Spec.started (remoteEngineMoves (acts ++ [y])) = Spec.started (remoteEngineMoves acts) := by
    rw [remoteEngineMoves_snoc]
    cases y with
    | sys x =>
      simp only [RemoteEngineAct.engPart]
      rw [started_snoc]
      cases x <;> first | (exact absurd rfl (h0 _)) | simp
    | _ => simp [RemoteEngineAct.engPart]
  rw [this]
  exact h.2

/-- The kinds of moves: of main tasks, job tasks, their reading the stream, calls; requests arriving, runners on servers that have been
told ending their streams, broken connections being noticed, clients, timers and the clock. -/
def rmuteOf (c r i n : Nat) : RemoteEngineAct → Prop :=
  match c with
  | 7 => clientOf r i n
  | 8 => remoteTimerOf r i
  | 9 => fun y => y = .sys (.tick 1)
  | c => rkindOf c r i n

/-- When a kind is due. -/
def rmuteDue (E : RemoteEngine) (c r i n : Nat) : Prop :=
  (∃ y, rmuteOf c r i n y ∧ E.step y ≠ none) ∧ (c = 6 → BrokenCall E r i n) ∧ (c = 5 → ServerTold E r i n)

/-- The kinds, numbered. -/
def rmuteKind (k : Nat) : RemoteEngineAct → Prop :=
  rmuteOf (Nat.unpair k).1 (Nat.unpair (Nat.unpair k).2).1 (Nat.unpair (Nat.unpair (Nat.unpair k).2).2).1
    (Nat.unpair (Nat.unpair (Nat.unpair k).2).2).2

def rmuteDueNo (E : RemoteEngine) (k : Nat) : Prop :=
  rmuteDue E (Nat.unpair k).1 (Nat.unpair (Nat.unpair k).2).1 (Nat.unpair (Nat.unpair (Nat.unpair k).2).2).1
    (Nat.unpair (Nat.unpair (Nat.unpair k).2).2).2

theorem rmuteKind_no (c r i n : Nat) : rmuteKind (kindNo c r i n) = rmuteOf c r i n := by
  simp only [rmuteKind, kindNo, Nat.unpair_pair]

theorem rmuteDue_no (E : RemoteEngine) (c r i n : Nat) : rmuteDueNo E (kindNo c r i n) = rmuteDue E c r i n := by
  simp only [rmuteDueNo, kindNo, Nat.unpair_pair]

/-- A kind with a move that is due has one that fails nothing and leaves ids alone. -/
theorem rmute_moves {acts : List RemoteEngineAct} {E : RemoteEngine} {c r i n : Nat} (h : SilentFine acts E) (hd : rmuteDue E c r i n) :
    ∃ y E', rmuteOf c r i n y ∧ E.step y = some E' ∧ SilentFine (acts ++ [y]) E' ∧ ServersOnlyObey E y := by
  obtain ⟨⟨y, hy, hs⟩, h6, h5⟩ := hd
  obtain ⟨E', hE'⟩ := Option.ne_none_iff_exists'.1 hs
  have plain : (∀ x, y ≠ .sys x) → ServersOnlyObey E y →
      ∃ y E', rmuteOf c r i n y ∧ E.step y = some E' ∧ SilentFine (acts ++ [y]) E' ∧ ServersOnlyObey E y :=
    fun hx hg => ⟨y, E', hy, hE', h.snoc hE' (fun wf e => hx _ e) (fun r i b s e => absurd e (hx _)) (fun r i b s e => absurd e (hx _)), hg⟩
  match c, hy, h6, h5 with
  | 0, ⟨b', e⟩, _, _ =>
    subst e
    exact ⟨_, E', ⟨b', rfl⟩, hE', h.snoc hE' (by simp) (by simp) (by simp), trivial, by simp⟩
  | 1, .inl ⟨z, e, hz⟩, _, _ =>
    subst e
    obtain ⟨b, rfl, hb⟩ := FairLem.workOf_iff.1 hz
    by_cases hn : ∃ b' s, b = .nextStep b' s
    · obtain ⟨b', s, rfl⟩ := hn
      simp only [RemoteEngine.step, SysAct.byRunner, Bool.false_eq_true, if_false, Option.map_eq_some_iff] at hE'
      obtain ⟨M, hM, -⟩ := hE'
      obtain ⟨ρ, t, x, hρ, hT, -, -, g, ρ1, hx, -⟩ := task_act hM
      obtain ⟨ρ', hρ', ht⟩ := taskAt_some hT
      rw [hρ] at hρ'
      cases hρ'
      obtain ⟨st, rest, hpc, hrest⟩ : ∃ st rest, t.pc = .next ∧ t.rest = st :: rest := by
        simp only [Sys.taskStep, SysTask.step, Option.map_eq_some_iff] at hx
        obtain ⟨u, hu, -⟩ := hx
        split at hu
        · rename_i st rest h1 h2; exact ⟨st, rest, h1, h2⟩
        · cases hu
      let s' : Step := { s with id := st.id }
      have hp : E.step (.sys (.task r i (.nextStep b' s'))) ≠ none := by
        refine rsys_possible rfl ?_
        intro hbad
        simp only [Sys.step, hρ, ht, Option.bind_eq_bind, Option.bind_some, Sys.taskStep, SysTask.step, hpc, hrest] at hbad
        split at hbad <;> simp at hbad
      obtain ⟨E1, hE1⟩ := Option.ne_none_iff_exists'.1 hp
      refine ⟨_, E1, .inl ⟨.task r i (.nextStep b' s'), rfl, FairLem.workOf_iff.2 ⟨_, rfl, trivial⟩⟩, hE1, h.snoc hE1 (by simp) ?_ ?_,
        trivial, by simp⟩
      · intro r' i' b'' s1 e t' ht'
        cases e
        rw [hT] at ht'
        cases ht'
        obtain ⟨sa, hsa, hf, -⟩ := rengine_sys h.1.1.1 h.1.1.2.2
        have e := engineOk_reach (apart_filter (hf ▸ h.1.1.2.1)) hsa
        have hw : (Spec.started (remoteEngineMoves acts))[r]? = some ρ.wf := by
          rw [← hf, started_filter, ← e.wfs]; simp [hρ]
        have hj := (runJobs_reach hsa r ρ hρ).tasks i t ht
        have hown := h.2 ρ.wf (List.mem_of_getElem? hw)
        have hok := (taskOk_reach hsa hρ (List.mem_of_getElem? ht)).1
        have hok : PcInv t.job (t.toJobM 0 none) := hok
        have hpc' : (t.toJobM 0 none).pc = .next := by simp [SysTask.toJobM, SysPc.toJobPc, hpc]
        simp only [PcInv, hpc'] at hok
        obtain ⟨_, ps, _, h3, _⟩ := hok
        have hr2 : (t.toJobM 0 none).rest = st :: rest := hrest
        rw [hr2] at h3
        exact hown.2 _ _ hj st (by rw [← h3]; simp)
      · intro r' i' b'' s1 e t' st' rest' ht' hr'
        cases e
        rw [hT] at ht'
        cases ht'
        rw [hrest] at hr'
        cases hr'
        rfl
    · refine ⟨_, E', .inl ⟨_, rfl, hz⟩, hE', h.snoc hE' (by simp) ?_ ?_, trivial, by simp⟩
      · intro r' i' b' s e
        cases e
        exact absurd ⟨b', s, rfl⟩ hn
      · intro r' i' b' s e
        cases e
        exact absurd ⟨b', s, rfl⟩ hn
  | 1, .inr (.inl ⟨sv, e⟩), _, _ => subst e; exact plain (by simp) ⟨trivial, by simp⟩
  | 1, .inr (.inr e), _, _ =>
    subst e
    obtain ⟨s, t0, ref, t, hT, hpc⟩ : ∃ s t0 ref t, taskAt E.sys r i = some t ∧ t.pc = .calling s t0 ref := by
      simp only [RemoteEngine.step] at hE'
      split at hE'
      · rename_i s t0 ref hq
        simp only [Option.map_eq_some_iff] at hq
        obtain ⟨t, h1, h2⟩ := hq
        rw [jobTask_eq] at h1
        exact ⟨s, t0, ref, t, h1, h2⟩
      · cases hE'
    obtain ⟨E1, hE1⟩ := Option.ne_none_iff_exists'.1 (dispatched_possible hT hpc)
    exact ⟨_, E1, .inr (.inl ⟨_, rfl⟩), hE1, h.snoc hE1 (by simp) (by simp) (by simp), trivial, by simp⟩
  | 2, e, _, _ =>
    have e : y = _ := e
    subst e
    exact ⟨_, E', rfl, hE', h.snoc hE' (by simp) (by simp) (by simp), trivial, by simp⟩
  | 3, ⟨b, e, hb⟩, _, _ =>
    subst e
    refine plain (by simp) ⟨?_, ?_⟩
    · cases b <;> first | trivial | cases hb
    · rintro r' i' n' z e; cases e; cases hb
  | 4, e, _, _ => have e : y = _ := e; subst e; exact plain (by simp) ⟨trivial, by simp⟩
  | 5, ⟨z, e⟩, _, h5 =>
    subst e
    refine plain (by simp) ⟨trivial, ?_⟩
    rintro r' i' n' z e; cases e; exact h5 rfl
  | 6, ⟨z, e⟩, h6, _ =>
    subst e
    exact plain (by simp) ⟨h6 rfl, by simp⟩
  | 7, ⟨b, e, hb⟩, _, _ =>
    subst e
    refine plain (by simp) ?_
    rcases hb with rfl | rfl | rfl | rfl <;> exact ⟨trivial, by simp⟩
  | 8, e, _, _ =>
    have e : y = _ := e
    subst e
    exact ⟨_, E', rfl, hE', h.snoc hE' (by simp) (by simp) (by simp), trivial, by simp⟩
  | 9, e, _, _ =>
    have e : y = _ := e
    subst e
    exact ⟨_, E', rfl, hE', h.snoc hE' (by simp) (by simp) (by simp), trivial, by simp⟩
  | (_ + 10), e, _, _ => exact absurd e id

theorem rmute_idles {acts : List RemoteEngineAct} {E : RemoteEngine} (h : SilentFine acts E) :
    ∃ y E', E.step y = some E' ∧ SilentFine (acts ++ [y]) E' ∧ ServersOnlyObey E y := by
  have hs : E.step (.sys (.tick 1)) ≠ none := rsys_possible rfl (by simp [Sys.step])
  obtain ⟨E', hE'⟩ := Option.ne_none_iff_exists'.1 hs
  exact ⟨_, E', hE', h.snoc hE' (by simp) (by simp) (by simp), trivial, by simp⟩

end RemoteSilentLem
open FairSched

/-- **C127** Such executions exist, whatever has happened before: every schedule whose hooks left ids alone can be continued to an endless
execution that treats *all* runs fairly, in which the runners on the servers write nothing any more and end their streams only after
getting a signal, broken connections are noticed, nobody starts or cancels anything and nothing fails. -/
theorem C127_fair_futures (acts : List RemoteEngineAct) (E : RemoteEngine) (h : RemoteEngineReach acts E)
    (ha : Apart (remoteEngineMoves acts)) (hk : RemoteEngineHooksKeepJobs acts) (hi : RemoteHooksKeepIds acts)
    (hown : ∀ wf ∈ Spec.started (remoteEngineMoves acts), OwnIds wf) :
    ∃ f a, RemoteEndless f a ∧ firstMoves a acts.length = acts ∧ f acts.length = E ∧
      (∀ n, Apart (remoteEngineMoves (firstMoves a n))) ∧ (∀ n, RemoteEngineHooksKeepJobs (firstMoves a n)) ∧
      (∀ n, RemoteHooksKeepIds (firstMoves a n)) ∧ (∀ n, acts.length ≤ n → ServersOnlyObey (f n) (a n)) ∧ RemoteTimePasses f ∧
      ∀ r, WeaklyFair RemoteEngine.step f a (remoteMainOf r) ∧ (∀ i, WeaklyFair RemoteEngine.step f a (remoteJobOf r i)) ∧
        (∀ i, StronglyFair RemoteEngine.step f a (remoteRecvOf r i)) ∧ (∀ i, WeaklyFair RemoteEngine.step f a (remoteTimerOf r i)) ∧
        (∀ i n, WeaklyFair RemoteEngine.step f a (callOf r i n)) ∧ (∀ i n, WeaklyFair RemoteEngine.step f a (clientOf r i n)) ∧
        BreaksNoticed f r ∧ ServersFallSilent a r ∧ ServersObey f a r := by
  obtain ⟨f, a, f0, hm, hfirst, hfE, hP, hfair⟩ := fair_future_en (step := RemoteEngine.step) (cls := rmuteKind) (en := rmuteDueNo)
    (Q := ServersOnlyObey) (P := SilentFine) (fun _ _ _ h hc => rmute_moves h hc) (fun _ _ h => rmute_idles h) (s00 := RemoteEngine.initial) h
    ⟨⟨⟨h, ha, hk⟩, hi⟩, hown⟩
  have hE : RemoteEndless f a := ⟨f0, hm⟩
  have hpre : ∀ n, (Apart (remoteEngineMoves (firstMoves a n)) ∧ RemoteEngineHooksKeepJobs (firstMoves a n)) ∧ RemoteHooksKeepIds (firstMoves a n) := by
    intro n
    rcases Nat.le_total acts.length n with hn | hn
    · exact ⟨(hP n hn).1.1.1.2, (hP n hn).1.1.2⟩
    · have e : firstMoves a n ++ acts.drop n = acts := by
        have : firstMoves a n = acts.take n := by
          rw [← hfirst]
          simp only [firstMoves, ← List.map_take, List.take_range, Nat.min_eq_left hn]
        rw [this, List.take_append_drop]
      exact ⟨remoteFine_prefix (e.symm ▸ ha) (e.symm ▸ hk), keepIds_prefix (e.symm ▸ hi)⟩
  have key : ∀ c r i n, (Often fun k => rmuteDue (f k) c r i n) → Often fun k => rmuteOf c r i n (a k) := by
    intro c r i n ho
    have := hfair (kindNo c r i n)
    simp only [rmuteDue_no, rmuteKind_no] at this
    exact this ho
  have key' : ∀ c r i n, c ≠ 6 → c ≠ 5 → StronglyFair RemoteEngine.step f a (rmuteOf c r i n) := by
    intro c r i n hc hc' ho
    exact key c r i n fun k => (ho k).imp fun m hm => ⟨hm.1, hm.2, fun e => absurd e hc, fun e => absurd e hc'⟩
  refine ⟨f, a, hE, hfirst, hfE, fun n => (hpre n).1.1, fun n => (hpre n).1.2, fun n => (hpre n).2, fun n hn => (hP n hn).2, ?_, fun r => ?_⟩
  · -- the clock
    have htick : Often fun n => a n = .sys (.tick 1) :=
      key' 9 0 0 0 (by decide) (by decide) fun n => ⟨n, Nat.le_refl _, _, rfl, rsys_possible rfl (by simp [Sys.step])⟩
    obtain ⟨x0, x1, x2, s1, s2, hx, hxs, hE', -, -⟩ := shadow_three hE (fun n => (hpre n).1.1) fun n => (hpre n).1.2
    have hmono : ∀ n m, n ≤ m → (f n).sys.now ≤ (f m).sys.now := by
      intro n m hnm
      have := now_mono hE'.moves (show 3 * n ≤ 3 * m by omega)
      rwa [every_0, every_0] at this
    intro T
    induction T with
    | zero => exact ⟨0, Nat.zero_le _⟩
    | succ T ih =>
      obtain ⟨n, hn⟩ := ih
      obtain ⟨m, hm', hm1⟩ := htick n
      refine ⟨m + 1, ?_⟩
      have h3 := hE.moves m
      rw [hm1] at h3
      simp only [RemoteEngine.step, SysAct.byRunner, Bool.false_eq_true, if_false, Sys.step, Option.map_some, Option.some.injEq] at h3
      rw [← h3]
      exact Nat.succ_le_succ (Nat.le_trans hn (hmono n m hm'))
  · exact ⟨weak_of_strong (key' 0 r 0 0 (by decide) (by decide)), fun i => weak_of_strong (key' 1 r i 0 (by decide) (by decide)),
      fun i => key' 2 r i 0 (by decide) (by decide), fun i => weak_of_strong (key' 8 r i 0 (by decide) (by decide)),
      fun i n => weak_of_strong (key' 3 r i n (by decide) (by decide)), fun i n => weak_of_strong (key' 7 r i n (by decide) (by decide)),
      breaks_noticed hE r fun i n ho => key 6 r i n fun k => (ho k).imp fun m hm => ⟨hm.1, hm.2.1, hm.2.2, fun e => absurd e (by decide)⟩,
      fun i n => ⟨acts.length, fun k hk l e => by have := (hP k hk).2.1; rw [e] at this; exact this⟩,
      servers_obey hE r (fun i n => key' 4 r i n (by decide) (by decide)) fun i n ho =>
        key 5 r i n fun k => (ho k).imp fun m hm => ⟨hm.1, hm.2.2, fun e => absurd e (by decide), fun _ => hm.2.1⟩⟩

/-- **C127** Whatever has happened so far, all workflows that have been started can return together although the runners on the servers
write nothing any more and end their streams only after getting a signal, and without further workflows, cancellations or failures:
steps whose servers hang are timed out. -/
theorem C127_hanging_servers_runs_can_return (acts : List RemoteEngineAct) (E : RemoteEngine) (h : RemoteEngineReach acts E)
    (ha : Apart (remoteEngineMoves acts)) (hk : RemoteEngineHooksKeepJobs acts) (hi : RemoteHooksKeepIds acts)
    (hown : ∀ wf ∈ Spec.started (remoteEngineMoves acts), OwnIds wf) :
    ∃ more E', RemoteEngineReach (acts ++ more) E' ∧ Apart (remoteEngineMoves (acts ++ more)) ∧ RemoteEngineHooksKeepJobs (acts ++ more) ∧
      (∀ pre y post, more = pre ++ y :: post → ∃ E1, RemoteEngineReach (acts ++ pre) E1 ∧ ServersOnlyObey E1 y) ∧
      ∀ (r : Nat) (ρ : SysRun), E.sys.runs[r]? = some ρ → UniqueJobs ρ.wf → OwnIds ρ.wf → DepsDefined ρ.wf → Acyclic ρ.wf → ρ.wf.jobs ≠ [] →
        NoParallelDependents ρ.wf → DistinctSteps ρ.wf → ∃ ρ' res, E'.sys.runs[r]? = some ρ' ∧ ρ'.pc = .returned res := by
  obtain ⟨f, a, hE, hfirst, hfE, hA, hK, hI, hgo, htime, hfair⟩ := C127_fair_futures acts E h ha hk hi hown
  have main : ∀ m, ∃ N, acts.length ≤ N ∧ ∀ r : Nat, r < m → ∀ ρ : SysRun, E.sys.runs[r]? = some ρ → UniqueJobs ρ.wf → OwnIds ρ.wf →
      DepsDefined ρ.wf → Acyclic ρ.wf → ρ.wf.jobs ≠ [] → NoParallelDependents ρ.wf → DistinctSteps ρ.wf →
      ∃ (ρ' : SysRun) (res : WorkflowRunResult), (f N).sys.runs[r]? = some ρ' ∧ ρ'.pc = .returned res := by
    intro m
    induction m with
    | zero => exact ⟨acts.length, Nat.le_refl _, fun r hr => absurd hr (Nat.not_lt_zero r)⟩
    | succ m ih =>
      obtain ⟨N, hN, hall⟩ := ih
      by_cases hex : ∃ ρ : SysRun, E.sys.runs[m]? = some ρ ∧ UniqueJobs ρ.wf ∧ OwnIds ρ.wf ∧ DepsDefined ρ.wf ∧ Acyclic ρ.wf ∧ ρ.wf.jobs ≠ [] ∧
          NoParallelDependents ρ.wf ∧ DistinctSteps ρ.wf
      · obtain ⟨ρ, hr, h1, h2, h3, h4, h5, h6, h7⟩ := hex
        obtain ⟨f1, f2, f3, f4, f5, f6, f7, f8, f9⟩ := hfair m
        obtain ⟨n, ρ', res, hn, hr', hp⟩ := C127_silent_servers_runs_return f a hE hA hK hI m acts.length ρ (by rw [hfE]; exact hr)
          h1 h2 h3 h4 h5 h6 h7 f1 f2 f3 f4 f5 f6 f7 htime f8 f9
        refine ⟨N + n, by omega, fun r hlt ρ1 g0 g1 g2 g3 g4 g5 g6 g7 => ?_⟩
        rcases Nat.lt_succ_iff_lt_or_eq.1 hlt with hlt | rfl
        · obtain ⟨ρ2, res2, e1, e2⟩ := hall r hlt ρ1 g0 g1 g2 g3 g4 g5 g6 g7
          obtain ⟨ρ3, e3, e4⟩ := remote_returned_stays hE e1 e2 n
          exact ⟨ρ3, res2, e3, e4⟩
        · obtain ⟨ρ3, e3, e4⟩ := remote_returned_stays hE hr' hp N
          rw [Nat.add_comm] at e3
          exact ⟨ρ3, res, e3, e4⟩
      · refine ⟨N, hN, fun r hlt ρ1 g0 g1 g2 g3 g4 g5 g6 g7 => ?_⟩
        rcases Nat.lt_succ_iff_lt_or_eq.1 hlt with hlt | rfl
        · exact hall r hlt ρ1 g0 g1 g2 g3 g4 g5 g6 g7
        · exact absurd ⟨ρ1, g0, g1, g2, g3, g4, g5, g6, g7⟩ hex
  obtain ⟨N, hN, hall⟩ := main E.sys.runs.length
  have e : acts ++ (firstMoves a N).drop acts.length = firstMoves a N := by
    have : acts = (firstMoves a N).take acts.length := by
      conv => lhs; rw [← hfirst]
      simp only [firstMoves, ← List.map_take, List.take_range, Nat.min_eq_left hN]
    conv => lhs; lhs; rw [this]
    exact List.take_append_drop _ _
  have hdrop : ∀ pre y post, (firstMoves a N).drop acts.length = pre ++ y :: post →
      ∃ E1, RemoteEngineReach (acts ++ pre) E1 ∧ ServersOnlyObey E1 y := by
    intro pre y post he
    have hl : firstMoves a N = (acts ++ pre) ++ y :: post := by rw [← e, he, List.append_assoc]
    have hlen : (acts ++ pre).length < N := by
      have : (firstMoves a N).length = N := by simp [firstMoves]
      rw [hl] at this
      simp only [List.length_append, List.length_cons] at this ⊢
      omega
    have h1 : firstMoves a (acts ++ pre).length = acts ++ pre := by
      have : firstMoves a (acts ++ pre).length = (firstMoves a N).take (acts ++ pre).length := by
        simp only [firstMoves, ← List.map_take, List.take_range, Nat.min_eq_left (Nat.le_of_lt hlen)]
      rw [this, hl, List.take_left]
    have h2 : a (acts ++ pre).length = y := by
      have h3 : (firstMoves a N)[(acts ++ pre).length]? = some y := by rw [hl, List.getElem?_append_right (Nat.le_refl _), Nat.sub_self]; rfl
      have h4 : (firstMoves a N)[(acts ++ pre).length]? = some (a (acts ++ pre).length) := by
        simp only [firstMoves]; rw [List.getElem?_map, List.getElem?_range hlen]; rfl
      rw [h4] at h3
      exact Option.some.inj h3
    refine ⟨f (acts ++ pre).length, ?_, ?_⟩
    · have := endless_remote hE (acts ++ pre).length
      rwa [h1] at this
    · have := hgo (acts ++ pre).length (by simp)
      rwa [h2] at this
  refine ⟨(firstMoves a N).drop acts.length, f N, ?_⟩
  rw [e]
  exact ⟨endless_remote hE N, hA N, hK N, hdrop, fun r ρ hr => hall r (List.getElem?_eq_some_iff.1 hr).1 ρ hr⟩

/-- Whether the before-step hooks in `acts` leave the ids of steps alone, from `E` on. -/
def RemoteSilentLem.idsCheck : RemoteEngine → List RemoteEngineAct → Bool
  | _, [] => true
  | E, y :: ys =>
    (match y with
      | .sys (.task r i (.nextStep _ s)) => (match taskAt E.sys r i with
        | some t => (match t.rest with | st :: _ => decide (s.id = st.id) | [] => true)
        | none => true)
      | _ => true) &&
    (match E.step y with | some E' => idsCheck E' ys | none => true)

theorem RemoteSilentLem.idsCheck_split {E E' : RemoteEngine} : ∀ {pre : List RemoteEngineAct} {ys : List RemoteEngineAct},
    runs RemoteEngine.step E pre = some E' → idsCheck E (pre ++ ys) = true → idsCheck E' ys = true := by
  intro pre
  induction pre generalizing E with
  | nil => intro ys h hc; cases h; exact hc
  | cons y pre ih =>
    intro ys h hc
    simp only [runs] at h
    cases hs : E.step y with
    | none => rw [hs] at h; cases h
    | some E1 =>
      rw [hs] at h
      simp only [List.cons_append, idsCheck, hs, Bool.and_eq_true] at hc
      exact ih h hc.2

theorem RemoteSilentLem.keepIds_of {acts : List RemoteEngineAct} (h : idsCheck RemoteEngine.initial acts = true) : RemoteHooksKeepIds acts := by
  intro pre r i b s post he E hE t st rest ht hr
  subst he
  have := idsCheck_split hE h
  simp only [idsCheck, ht, hr, Bool.and_eq_true, decide_eq_true_eq] at this
  exact this.1

theorem RemoteSilentLem.keepIds_two : RemoteHooksKeepIds RemoteEngineEx.two := keepIds_of (by decide +kernel)

theorem RemoteSilentLem.single_own (w : String) : OwnIds (SystemEx.single w) := by
  refine ⟨?_, ?_⟩
  · intro k j k' j' h h' _
    have e : ∀ k j, (k, j) ∈ (SystemEx.single w).jobs → k = "a" := by
      intro k j h; simp [SystemEx.single] at h; exact h.1
    exact (e k j h).trans (e k' j' h').symm
  · intro k j h s hs
    simp [SystemEx.single] at h
    obtain ⟨rfl, rfl⟩ := h
    simp at hs
    subst hs
    rfl

theorem RemoteSilentLem.owns_two : ∀ wf ∈ Spec.started (remoteEngineMoves RemoteEngineEx.two), OwnIds wf := by
  intro wf hwf
  have : Spec.started (remoteEngineMoves RemoteEngineEx.two) = [SystemEx.single "v", SystemEx.single "w"] := rfl
  rw [this] at hwf
  simp only [List.mem_cons, List.not_mem_nil, or_false] at hwf
  rcases hwf with rfl | rfl <;> exact single_own _

set_option maxRecDepth 8000 in
theorem RemoteSilentLem.hangs_two : ∃ ρ x, (RemoteEngineEx.after RemoteEngineEx.two).sys.runs[1]? = some ρ ∧ (∀ res, ρ.pc ≠ .returned res) ∧
    ρ.wf = SystemEx.single "w" ∧ callAt (RemoteEngineEx.after RemoteEngineEx.two) 1 0 0 = some x ∧ x.remote.signal = none ∧
    x.net.cli = .streaming := by
  refine ⟨_, _, rfl, ?_, rfl, rfl, rfl, rfl⟩
  intro res hbad
  cases hbad

/-- The hypotheses are met: in the middle of two workflows, with a server that executes a step and was not told to stop. -/
example : ∃ E, RemoteEngineReach RemoteEngineEx.two E ∧ Apart (remoteEngineMoves RemoteEngineEx.two) ∧
    RemoteEngineHooksKeepJobs RemoteEngineEx.two ∧ RemoteHooksKeepIds RemoteEngineEx.two ∧
    (∀ wf ∈ Spec.started (remoteEngineMoves RemoteEngineEx.two), OwnIds wf) ∧
    ∃ ρ x, E.sys.runs[1]? = some ρ ∧ (∀ res, ρ.pc ≠ .returned res) ∧ UniqueJobs ρ.wf ∧ OwnIds ρ.wf ∧ DepsDefined ρ.wf ∧ Acyclic ρ.wf ∧
      ρ.wf.jobs ≠ [] ∧ NoParallelDependents ρ.wf ∧ DistinctSteps ρ.wf ∧ callAt E 1 0 0 = some x ∧ ¬ ServerTold E 1 0 0 := by
  obtain ⟨ρ, x, h1, h2, h3, h4, h5, -⟩ := RemoteSilentLem.hangs_two
  have hreach : RemoteEngineReach RemoteEngineEx.two (RemoteEngineEx.after RemoteEngineEx.two) := rfl
  generalize RemoteEngineEx.after RemoteEngineEx.two = E at h1 h4 hreach
  have hj : ∀ k j, (k, j) ∈ ρ.wf.jobs → (k, j) ∈ (SystemEx.single "w").jobs := by
    intro k j h
    rwa [h3] at h
  refine ⟨E, hreach, RemoteEngineEx.apart_two, RemoteEngineEx.keeps_two, RemoteSilentLem.keepIds_two, RemoteSilentLem.owns_two, ρ, x, h1, h2,
    ?_, ?_, ?_, ?_, ?_, ?_, ?_, h4, ?_⟩
  · rw [h3]; exact List.nodup_singleton "a"
  · rw [h3]; exact RemoteSilentLem.single_own _
  · intro k j h d hd
    have := hj k j h
    simp [SystemEx.single] at this
    obtain ⟨rfl, rfl⟩ := this
    simp at hd
  · rw [h3]; exact SystemEx.single_acyclic "w"
  · rw [h3]; simp [SystemEx.single]
  · intro k j h hd
    have := hj k j h
    simp [SystemEx.single] at this
    obtain ⟨rfl, rfl⟩ := this
    exact absurd rfl hd
  · intro k j h
    have := hj k j h
    simp [SystemEx.single] at this
    obtain ⟨rfl, rfl⟩ := this
    simp
  · rintro ⟨x', v, hx', hv⟩
    rw [h4] at hx'
    cases hx'
    rw [h5] at hv
    cases hv

namespace RemoteSilentLem
/-- `b` delivers before `a`, so that `c` becomes ready once only. -/
def onceActs : List SysAct :=
  [.start TimingEx.wf, .main 0 (.check true), .main 0 .spawn, .main 0 .spawn, .main 0 .spawn, .main 0 .spawn, .main 0 .spawn] ++
  TimingEx.first 0 "b" ++ TimingEx.second 0 ++ TimingEx.first 1 "a" ++ TimingEx.second 1 ++ TimingEx.first 2 "c" ++ TimingEx.second 2 ++
  TimingEx.first 3 "e" ++ TimingEx.second 3 ++ [.main 0 .announce, .main 0 .complete]
end RemoteSilentLem

/-- Runs that start no job twice also occur in workflows that do not exclude it: here `c` waits for `a`, and nobody for `b`. -/
example : ∃ M ρ res, SysReach RemoteSilentLem.onceActs M ∧ M.runs[0]? = some ρ ∧ ρ.pc = .returned res ∧ res.jobs.length = 4 ∧
    (∀ k, StartedOnce ρ k) ∧ ¬ NoParallelDependents ρ.wf := by
  obtain ⟨M, ρ, res, h1, h2, h3, h4, h5, h6⟩ : ∃ M ρ res, SysReach RemoteSilentLem.onceActs M ∧ M.runs[0]? = some ρ ∧ ρ.pc = .returned res ∧
      res.jobs.length = 4 ∧ ρ.tasks.map SysTask.key = ["b", "a", "c", "e"] ∧ ρ.wf = TimingEx.wf :=
    ⟨SystemEx.after RemoteSilentLem.onceActs, _, _, rfl, rfl, rfl, rfl, rfl, rfl⟩
  refine ⟨M, ρ, res, h1, h2, h3, h4, ?_, ?_⟩
  · rintro k i j ⟨t, ht, rfl⟩ ⟨u, hv, he⟩
    have hn : (ρ.tasks.map SysTask.key).Nodup := by rw [h5]; decide
    have hi := List.getElem?_eq_some_iff.1 ht
    have hj := List.getElem?_eq_some_iff.1 hv
    obtain ⟨li, gi⟩ := hi
    obtain ⟨lj, gj⟩ := hj
    refine (List.Nodup.getElem_inj_iff hn (hi := by simpa using li) (hj := by simpa using lj)).1 ?_
    rw [List.getElem_map, List.getElem_map, gi, gj]
    exact he.symm
  · intro h
    rw [h6] at h
    have dep : ∀ {x y : Id}, DependsOn TimingEx.wf x y → (x = "c" ∧ y = "a") ∨ (x = "e" ∧ y = "c") := by
      rintro x y ⟨j, hj, hd⟩
      change (x, j) ∈ [("e", TimingEx.job "e" ["c"]), ("c", TimingEx.job "c" ["a"]), ("b", TimingEx.job "b" []), ("a", TimingEx.job "a" [])] at hj
      simp only [ List.mem_cons, Prod.mk.injEq, List.not_mem_nil, or_false] at hj
      rcases hj with ⟨rfl, rfl⟩ | ⟨rfl, rfl⟩ | ⟨rfl, rfl⟩ | ⟨rfl, rfl⟩ <;> simp [TimingEx.job] at hd <;> simp [hd]
    have hb := h "c" (TimingEx.job "c" ["a"]) (by decide) (by decide) "b" (TimingEx.job "b" []) (by decide) (by decide)
    rcases hb with hx | hx
    · obtain ⟨z, _, hz⟩ := Relation.TransGen.tail'_iff.1 hx
      rcases dep hz with ⟨_, e⟩ | ⟨_, e⟩ <;> exact absurd e (by decide)
    · obtain ⟨z, hz, _⟩ := Relation.TransGen.head'_iff.1 hx
      rcases dep hz with ⟨e, _⟩ | ⟨e, _⟩ <;> exact absurd e (by decide)

end AstroRun
