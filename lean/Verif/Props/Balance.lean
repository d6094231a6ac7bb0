import Verif.Props.Scheduler

/-! # C125: work is spread evenly, up to the number of calls at a time -/

namespace AstroRun
open Spec

namespace BalanceLem

theorem countP_modify {α : Type} (p : α → Bool) (f : α → α) {l : List α} {i : Nat} {x : α} (h : l[i]? = some x) :
    (l.modify i f).countP p + (if p x then 1 else 0) = l.countP p + (if p (f x) then 1 else 0) := by
  induction l generalizing i with
  | nil => simp at h
  | cons y l ih =>
    cases i with
    | zero =>
      simp only [List.getElem?_cons_zero, Option.some.injEq] at h
      subst h
      simp only [List.modify_zero_cons, List.countP_cons]
      omega
    | succ i =>
      simp only [List.getElem?_cons_succ] at h
      have := ih h
      simp only [List.modify_succ_cons, List.countP_cons]
      omega

/-- The call has decided for the runner with id `r`, and not booked it. -/
def decidedFor (r : Id) (c : SchedCall) : Bool :=
  match c.pc with
  | .decided (some q) => decide (q.id = r)
  | _ => false

theorem decidedFor_le {r : Id} (l : List SchedCall) : l.countP (decidedFor r) ≤ l.countP inProgress := by
  apply List.countP_mono_left
  intro c _ h
  simp only [decidedFor] at h
  split at h
  · rename_i hpc; simp [inProgress, hpc]
  · cases h

/-- What holds after a history without reports. -/
structure Balanced (k : Nat) (rs : List RunnerMeta) (acts : List SchedAct) (m : SchedM) : Prop where
  calls : ∀ c ∈ m.calls, c.runners = rs ∧ WantsDocker c.cmd
  jobs : m.calls.map (fun c => c.cmd.id.jobId) = acts.filterMap askedFor
  bound : ∀ j r, m.st.jobRunners.get? j = some r → ∃ c ∈ m.calls, c.cmd.id.jobId = j ∧ ∃ r, c.pc = .done r
  counts : ∀ r, (m.st.runsCount.get? r).getD 0 = given m.trace r
  even : ∀ a b, b ∈ rs → b.supportDocker = true → given m.trace a + m.calls.countP (decidedFor a) ≤ given m.trace b.id + k

theorem given_snoc (tr : List SchedEvent) (e : SchedEvent) (r : Id) : given (tr ++ [e]) r = given tr r + if givesTo r e then 1 else 0 := by
  simp [given, List.countP_append, List.countP_cons]

theorem setCall_cases {m : SchedM} {i : Nat} {pc : SchedPc} {c : SchedCall} (h : c ∈ (m.setCall i pc).calls) :
    c ∈ m.calls ∨ ∃ c0, m.calls[i]? = some c0 ∧ c = { c0 with pc := pc } := by
  obtain ⟨j, hj⟩ := List.mem_iff_getElem?.1 h
  rw [getElem?_setCall] at hj
  split at hj
  · rename_i e
    subst e
    obtain ⟨c0, h0, h1⟩ := Option.map_eq_some_iff.1 hj
    exact .inr ⟨c0, h0, h1.symm⟩
  · exact .inl (List.mem_of_getElem? hj)

theorem setCall_jobs (m : SchedM) (i : Nat) (pc : SchedPc) :
    (m.setCall i pc).calls.map (fun c => c.cmd.id.jobId) = m.calls.map (fun c => c.cmd.id.jobId) := by
  apply List.ext_getElem?
  intro j
  rw [List.getElem?_map, List.getElem?_map, getElem?_setCall]
  split
  · cases m.calls[j]? <;> rfl
  · rfl

/-- A call that has returned stays so. -/
theorem setCall_keeps {m : SchedM} {i : Nat} {pc : SchedPc} {c c0 : SchedCall} (h : c ∈ m.calls) (hc : ∃ r, c.pc = .done r)
    (h0 : m.calls[i]? = some c0) (hn : ∀ r, c0.pc ≠ .done r) : c ∈ (m.setCall i pc).calls := by
  obtain ⟨j, hj⟩ := List.mem_iff_getElem?.1 h
  apply List.mem_of_getElem? (i := j)
  rw [getElem?_setCall, if_neg, hj]
  rintro rfl
  rw [h0] at hj
  cases hj
  obtain ⟨r, hr⟩ := hc
  exact hn r hr

theorem setCall_count (p : SchedCall → Bool) {m : SchedM} {i : Nat} {pc : SchedPc} {c0 : SchedCall} (h0 : m.calls[i]? = some c0) :
    (m.setCall i pc).calls.countP p + (if p c0 then 1 else 0) = m.calls.countP p + (if p { c0 with pc := pc } then 1 else 0) :=
  countP_modify p _ h0

theorem balanced_step {k : Nat} {rs : List RunnerMeta} {acts : List SchedAct} {a : SchedAct} {m m' : SchedM} (h : Balanced k rs acts m)
    (ho : OneShot rs (acts ++ [a])) (hk : m'.calls.countP inProgress ≤ k) (hs : m.step a = some m') : Balanced k rs (acts ++ [a]) m' := by
  have hjn : (m.calls.map (fun c => c.cmd.id.jobId)).Nodup := by
    rw [h.jobs]
    have := ho.once
    rw [List.filterMap_append] at this
    exact (List.nodup_append.1 this).1
  cases a with
  | call rs' c =>
    simp only [SchedM.step, Option.some.injEq] at hs
    subst hs
    obtain ⟨rfl, hd⟩ := ho.same rs' c (by simp)
    constructor
    · intro c' hc'
      simp only [List.mem_append, List.mem_singleton] at hc'
      rcases hc' with hc' | rfl
      · exact h.calls c' hc'
      · exact ⟨rfl, hd⟩
    · simp [h.jobs, List.filterMap_append, askedFor]
    · intro j r hj
      obtain ⟨c', h1, h2⟩ := h.bound j r hj
      exact ⟨c', by simp [h1], h2⟩
    · exact h.counts
    · intro a b hb hbd
      have := h.even a b hb hbd
      simpa [List.countP_append, decidedFor] using this
  | lookup i =>
    simp only [SchedM.step] at hs
    split at hs
    · rename_i rs' c hc
      obtain ⟨e, hd⟩ := h.calls _ (List.mem_of_getElem? hc)
      have hno : m.st.jobRunners.get? c.id.jobId = none := by
        cases hj : m.st.jobRunners.get? c.id.jobId with
        | none => rfl
        | some r =>
          obtain ⟨c', h1, h2, r', h3⟩ := h.bound _ _ hj
          obtain ⟨j, hj'⟩ := List.mem_iff_getElem?.1 h1
          have e1 : (m.calls.map (fun c => c.cmd.id.jobId))[i]? = some c.id.jobId := by rw [List.getElem?_map, hc]; rfl
          have e2 : (m.calls.map (fun c => c.cmd.id.jobId))[j]? = some c.id.jobId := by rw [List.getElem?_map, hj']; simp [h2]
          have hlt := (List.getElem?_eq_some_iff.1 e1).1
          have : i = j := (List.getElem?_inj hlt hjn).1 (e1.trans e2.symm)
          subst this
          rw [hc] at hj'
          cases hj'
          cases h3
      rw [hno] at hs
      simp only [Option.bind_none, Option.some.injEq] at hs
      subst hs
      constructor
      · intro c' hc'
        rcases setCall_cases hc' with h1 | ⟨c0, h1, rfl⟩
        · exact h.calls c' h1
        · rw [hc] at h1; cases h1; exact ⟨e, hd⟩
      · rw [setCall_jobs, h.jobs]; simp [List.filterMap_append, askedFor]
      · intro j r hj
        obtain ⟨c', h1, h2, h3⟩ := h.bound j r hj
        exact ⟨c', setCall_keeps h1 h3 hc (by simp), h2, h3⟩
      · exact h.counts
      · intro a b hb hbd
        have h1 := h.even a b hb hbd
        have h2 := setCall_count (decidedFor a) (pc := .picking) hc
        have h1' : given m.trace a + m.calls.countP (decidedFor a) ≤ given m.trace b.id + k := h1
        show given m.trace a + _ ≤ given m.trace b.id + k
        simp only [decidedFor, Bool.false_eq_true, if_false] at h2 h1' ⊢
        omega
    · cases hs
  | pick i =>
    simp only [SchedM.step] at hs
    split at hs
    · rename_i rs' c hc
      simp only [Option.some.injEq] at hs
      obtain ⟨e, hd⟩ := h.calls _ (List.mem_of_getElem? hc)
      have e : rs' = rs := e
      subst e
      rw [pickRunner_docker hd] at hs
      subst hs
      constructor
      · intro c' hc'
        rcases setCall_cases hc' with h1 | ⟨c0, h1, rfl⟩
        · exact h.calls c' h1
        · rw [hc] at h1; cases h1; exact ⟨rfl, hd⟩
      · rw [setCall_jobs, h.jobs]; simp [List.filterMap_append, askedFor]
      · intro j r hj
        obtain ⟨c', h1, h2, h3⟩ := h.bound j r hj
        exact ⟨c', setCall_keeps h1 h3 hc (by simp), h2, h3⟩
      · exact h.counts
      · intro a b hb hbd
        show given m.trace a + _ ≤ given m.trace b.id + k
        have h1 : given m.trace a + m.calls.countP (decidedFor a) ≤ given m.trace b.id + k := h.even a b hb hbd
        have h2 := setCall_count (decidedFor a) (pc := .decided (pickDockerRunner m.st.runsCount rs')) hc
        by_cases hx : decidedFor a { runners := rs', cmd := c, pc := SchedPc.decided (pickDockerRunner m.st.runsCount rs') } = true
        · simp only [decidedFor] at hx
          split at hx
          · rename_i q hq
            have hq : pickDockerRunner m.st.runsCount rs' = some q := by simpa using hq
            have hqa : q.id = a := by simpa using hx
            obtain ⟨pre, post, f1, f2, f3⟩ := minByKey_spec hq
            have hmem : b ∈ pre ++ q :: post := f1 ▸ List.mem_filter.2 ⟨hb, hbd⟩
            have hle : (m.st.runsCount.get? q.id).getD 0 ≤ (m.st.runsCount.get? b.id).getD 0 := by
              simp only [List.mem_append, List.mem_cons] at hmem
              rcases hmem with hm | rfl | hm
              · exact Int.le_of_lt (f2 b hm)
              · exact Int.le_refl _
              · exact f3 b hm
            rw [h.counts, h.counts, hqa] at hle
            have hle := Int.ofNat_le.1 hle
            have := decidedFor_le (r := a) (m.setCall i (.decided (pickDockerRunner m.st.runsCount rs'))).calls
            omega
          · cases hx
        · simp only [hx] at h2
          simp only [decidedFor, Bool.false_eq_true, if_false] at h2 h1 ⊢
          omega
    · cases hs
  | commit i =>
    simp only [SchedM.step] at hs
    split at hs
    · rename_i rs' c hc
      simp only [Option.some.injEq] at hs
      obtain ⟨e, hd⟩ := h.calls _ (List.mem_of_getElem? hc)
      subst hs
      constructor
      · intro c' hc'
        rcases setCall_cases hc' with h1 | ⟨c0, h1, rfl⟩
        · exact h.calls c' h1
        · rw [hc] at h1; cases h1; exact ⟨e, hd⟩
      · rw [setCall_jobs, h.jobs]; simp [List.filterMap_append, askedFor]
      · intro j r hj
        obtain ⟨c', h1, h2, h3⟩ := h.bound j r hj
        exact ⟨c', setCall_keeps h1 h3 hc (by simp), h2, h3⟩
      · exact h.counts
      · intro a b hb hbd
        have h1' : given m.trace a + m.calls.countP (decidedFor a) ≤ given m.trace b.id + k := h.even a b hb hbd
        have h2 := setCall_count (decidedFor a) (pc := .done none) hc
        show given m.trace a + _ ≤ given m.trace b.id + k
        simp only [decidedFor, Bool.false_eq_true, if_false] at h2 h1' ⊢
        omega
    · rename_i rs' c r hc
      simp only [Option.some.injEq] at hs
      obtain ⟨e, hd⟩ := h.calls _ (List.mem_of_getElem? hc)
      subst hs
      constructor
      · intro c' hc'
        rcases setCall_cases (show c' ∈ (m.setCall i (.done (some r))).calls from hc') with h1 | ⟨c0, h1, rfl⟩
        · exact h.calls c' h1
        · rw [hc] at h1; cases h1; exact ⟨e, hd⟩
      · show (m.setCall i (.done (some r))).calls.map _ = _
        rw [setCall_jobs, h.jobs]; simp [List.filterMap_append, askedFor]
      · intro j q hj
        have hdone : ∃ c' ∈ (m.setCall i (.done (some r))).calls, c'.cmd = c ∧ ∃ r, c'.pc = .done r := by
          have : (m.setCall i (.done (some r))).calls[i]? = some { runners := rs', cmd := c, pc := .done (some r) } := by
            rw [getElem?_setCall, if_pos rfl, hc]; rfl
          exact ⟨_, List.mem_of_getElem? this, rfl, _, rfl⟩
        simp only [SchedState.commit] at hj
        rw [(wantsDocker_iff _).1 hd] at hj
        simp only [Bool.false_eq_true, if_false] at hj
        by_cases hjj : c.id.jobId = j
        · obtain ⟨c', h1, h2, h3⟩ := hdone
          exact ⟨c', h1, by rw [h2]; exact hjj, h3⟩
        · have hj' : m.st.jobRunners.get? j = some q := by
            rw [AMap.get?_insert] at hj
            simpa [hjj, Ne.symm hjj] using hj
          obtain ⟨c', h1, h2, h3⟩ := h.bound j q hj'
          exact ⟨c', setCall_keeps h1 h3 hc (by simp), h2, h3⟩
      · intro q
        show ((m.st.commit c r).runsCount.get? q).getD 0 = ↑(given (m.trace ++ [.scheduled c r]) q)
        rw [given_snoc]
        simp only [SchedState.commit, AMap.get?_insert, givesTo]
        have := h.counts q
        by_cases hq : r.id = q
        · subst hq
          simp [this]
        · simp [hq, Ne.symm hq, this]
      · intro a b hb hbd
        have h1 : given m.trace a + m.calls.countP (decidedFor a) ≤ given m.trace b.id + k := h.even a b hb hbd
        have h2 := setCall_count (decidedFor a) (pc := .done (some r)) hc
        show given (m.trace ++ [.scheduled c r]) a + (m.setCall i (.done (some r))).calls.countP (decidedFor a) ≤
          given (m.trace ++ [.scheduled c r]) b.id + k
        rw [given_snoc, given_snoc]
        simp only [decidedFor, givesTo, Bool.false_eq_true, if_false] at h1 h2 ⊢
        by_cases hra : r.id = a <;> simp only [hra, decide_true, decide_false, if_true, Bool.false_eq_true, if_false] at h2 ⊢ <;> omega
    · cases hs
  | stepDone id => exact absurd (by simp) (ho.silent id)
  | jobDone id =>
    simp only [SchedM.step, Option.some.injEq] at hs
    subst hs
    constructor
    · exact h.calls
    · simp [h.jobs, List.filterMap_append, askedFor]
    · intro j r hj
      simp only [SchedState.jobCompleted] at hj
      rw [AMap.get?_erase] at hj
      split at hj
      · cases hj
      · exact h.bound j r hj
    · intro r
      show (m.st.runsCount.get? r).getD 0 = ↑(given (m.trace ++ [.jobDone id]) r)
      rw [given_snoc]
      simp [givesTo, h.counts r]
    · intro a b hb hbd
      have h1 := h.even a b hb hbd
      show given (m.trace ++ [.jobDone id]) a + _ ≤ given (m.trace ++ [.jobDone id]) b.id + k
      rw [given_snoc, given_snoc]
      simpa [givesTo] using h1

theorem OneShot.prefix {rs : List RunnerMeta} {p q : List SchedAct} (h : OneShot rs (p ++ q)) : OneShot rs p where
  same rs' c hm := h.same rs' c (by simp [hm])
  once := by
    have := h.once
    rw [List.filterMap_append] at this
    exact (List.nodup_append.1 this).1
  silent id hm := h.silent id (by simp [hm])

theorem balanced_reach {k : Nat} {rs : List RunnerMeta} {acts : List SchedAct} {m : SchedM} (h : SchedReach acts m) (ho : OneShot rs acts)
    (hk : AtMostAtOnce k acts) : Balanced k rs acts m := by
  induction acts using List.reverseRecOn generalizing m with
  | nil =>
    simp only [SchedReach, runs, Option.some.injEq] at h
    subst h
    exact ⟨by simp, rfl, by simp [AMap.get?], by simp [AMap.get?, given], by simp [given]⟩
  | append_singleton acts a ih =>
    obtain ⟨m0, h0, h1⟩ := runs_snoc.1 h
    refine balanced_step (ih h0 (OneShot.prefix ho) fun pre post m' e hm' => hk pre (post ++ [a]) m' (by rw [e]; simp) hm') ho
      (hk _ [] m (by simp) h) h1

end BalanceLem

/-- **C125** In every history of overlapping `schedule` calls for docker steps of different jobs, with the same runners offered in each and no
completion reported: if there are never more than `k` calls at a time, no docker-capable runner (indeed no runner) has been given more
than `k` steps more than any docker-capable one.  In particular, the numbers differ at most by one if calls do not overlap. -/
theorem C125_spread_evenly (k : Nat) (rs : List RunnerMeta) (acts : List SchedAct) (m : SchedM) (h : SchedReach acts m) (ho : OneShot rs acts)
    (hk : AtMostAtOnce k acts) (a : Id) (b : RunnerMeta) (hb : b ∈ rs) (hd : b.supportDocker = true) :
    given m.trace a ≤ given m.trace b.id + k :=
  Nat.le_trans (Nat.le_add_right _ _) ((BalanceLem.balanced_reach h ho hk).even a b hb hd)

namespace BalanceEx

/-- Two runners. -/
def rs : List RunnerMeta := [{ id := "a" }, { id := "b" }]
/-- The step of the `n`-th job. -/
def cmd (n : Nat) : Command := { id := ⟨"w", String.ofList (List.replicate n 'x'), 0⟩ }

theorem docker (n : Nat) : WantsDocker (cmd n) := (wantsDocker_iff _).2 rfl

theorem cmd_inj {n k : Nat} (h : (cmd n).id.jobId = (cmd k).id.jobId) : n = k := by
  have h1 : String.ofList (List.replicate n 'x') = String.ofList (List.replicate k 'x') := congrArg JobId.job h
  have h2 := congrArg (fun s : String => s.toList.length) h1
  simpa using h2

/-- `n` calls get as far as their decision. -/
def ask : Nat → List SchedAct
  | 0 => []
  | n + 1 => ask n ++ [.call rs (cmd n), .lookup n, .pick n]

/-- The first `n` calls book. -/
def book : Nat → List SchedAct
  | 0 => []
  | n + 1 => book n ++ [.commit n]

/-- `n` calls that have decided for the first runner. -/
def decided : Nat → List SchedCall
  | 0 => []
  | n + 1 => decided n ++ [⟨rs, cmd n, .decided (some { id := "a" })⟩]

theorem decided_length (n : Nat) : (decided n).length = n := by
  induction n with
  | zero => rfl
  | succ n ih => simp [decided, ih]

theorem decided_get {n i : Nat} (h : i < n) : (decided n)[i]? = some ⟨rs, cmd i, .decided (some { id := "a" })⟩ := by
  induction n with
  | zero => omega
  | succ n ih =>
    simp only [decided]
    rcases Nat.lt_succ_iff_lt_or_eq.1 h with h | rfl
    · rw [List.getElem?_append_left (by rw [decided_length]; exact h)]; exact ih h
    · rw [List.getElem?_append_right (by rw [decided_length]; exact Nat.le_refl _), decided_length, Nat.sub_self]; rfl

theorem modify_last {α : Type} (l : List α) (x : α) (f : α → α) (n : Nat) (h : l.length = n) : (l ++ [x]).modify n f = l ++ [f x] := by
  subst h
  induction l with
  | nil => rfl
  | cons y l ih => simpa using ih

theorem ask_reach (n : Nat) : SchedReach (ask n) { calls := decided n } := by
  induction n with
  | zero => rfl
  | succ n ih =>
    have hg : ∀ x : SchedCall, (decided n ++ [x])[n]? = some x := by
      intro x
      rw [List.getElem?_append_right (by rw [decided_length]; exact Nat.le_refl _), decided_length, Nat.sub_self]; rfl
    unfold SchedReach at ih ⊢
    simp only [ask]
    rw [runs_append, ih]
    simp only [Option.bind_some, runs, SchedM.step, hg, AMap.get?, Option.bind_none, SchedM.setCall, modify_last _ _ _ _ (decided_length n)]
    rfl

theorem book_reach (k n : Nat) (h : n ≤ k) : ∃ m, SchedReach (ask k ++ book n) m ∧ given m.trace "a" = n ∧ given m.trace "b" = 0 ∧
    ∀ i, n ≤ i → i < k → m.calls[i]? = some ⟨rs, cmd i, .decided (some { id := "a" })⟩ := by
  induction n with
  | zero =>
    refine ⟨{ calls := decided k }, ?_, rfl, rfl, fun i _ hi => decided_get hi⟩
    simpa [book] using ask_reach k
  | succ n ih =>
    obtain ⟨m, h1, h2, h3, h4⟩ := ih (by omega)
    have hn := h4 n (Nat.le_refl _) (by omega)
    have hstep : m.step (.commit n) = some { m.setCall n (.done (some { id := "a" })) with
        st := m.st.commit (cmd n) { id := "a" }, trace := m.trace ++ [.scheduled (cmd n) { id := "a" }] } := by
      simp only [SchedM.step, hn]
    have hreach := runs_snoc.2 ⟨m, h1, hstep⟩
    rw [List.append_assoc] at hreach
    refine ⟨_, hreach, ?_, ?_, ?_⟩
    · show given (m.trace ++ [_]) "a" = n + 1
      rw [BalanceLem.given_snoc, h2]; rfl
    · show given (m.trace ++ [_]) "b" = 0
      rw [BalanceLem.given_snoc, h3]; rfl
    · intro i hi hik
      show (m.setCall n _).calls[i]? = _
      rw [getElem?_setCall, if_neg (by omega)]
      exact h4 i (by omega) hik

theorem ask_calls {n : Nat} {rs' : List RunnerMeta} {c : Command} (h : .call rs' c ∈ ask n) : rs' = rs ∧ ∃ k, k < n ∧ c = cmd k := by
  induction n with
  | zero => simp [ask] at h
  | succ n ih =>
    simp [ask] at h
    rcases h with h | ⟨rfl, rfl⟩
    · obtain ⟨h1, k, h2, h3⟩ := ih h
      exact ⟨h1, k, by omega, h3⟩
    · exact ⟨rfl, n, by omega, rfl⟩

theorem book_commit {n : Nat} {a : SchedAct} (h : a ∈ book n) : ∃ k, a = .commit k := by
  induction n with
  | zero => simp [book] at h
  | succ n ih =>
    simp only [book, List.mem_append, List.mem_singleton] at h
    rcases h with h | h
    · exact ih h
    · exact ⟨n, h⟩

theorem book_asked (n : Nat) : (book n).filterMap askedFor = [] := by
  rw [List.filterMap_eq_nil_iff]
  intro a h
  obtain ⟨k, rfl⟩ := book_commit h
  rfl

theorem ask_jobs {n : Nat} {j : JobId} (h : j ∈ (ask n).filterMap askedFor) : ∃ k, k < n ∧ j = (cmd k).id.jobId := by
  obtain ⟨a, h1, h2⟩ := List.mem_filterMap.1 h
  cases a with
  | call rs' c =>
    obtain ⟨_, k, h3, h4⟩ := ask_calls h1
    simp [askedFor] at h2
    exact ⟨k, h3, by rw [← h2, h4]⟩
  | _ => cases h2

theorem ask_once (n : Nat) : ((ask n).filterMap askedFor).Nodup := by
  induction n with
  | zero => simp [ask]
  | succ n ih =>
    rw [ask, List.filterMap_append, List.nodup_append]
    refine ⟨ih, by simp [askedFor, List.filterMap_cons], ?_⟩
    intro x hx y hy hxy
    obtain ⟨k, h1, h2⟩ := ask_jobs hx
    simp [askedFor, List.filterMap_cons] at hy
    rw [h2, hy] at hxy
    have := cmd_inj hxy
    omega

theorem one_shot (k n : Nat) : OneShot rs (ask k ++ book n) where
  same rs' c h := by
    rcases List.mem_append.1 h with h | h
    · obtain ⟨h1, j, _, h3⟩ := ask_calls h
      exact ⟨h1, h3 ▸ docker j⟩
    · obtain ⟨j, h⟩ := book_commit h
      cases h
  once := by rw [List.filterMap_append, book_asked, List.append_nil]; exact ask_once k
  silent id h := by
    rcases List.mem_append.1 h with h | h
    · clear * - h
      induction k with
      | zero => simp [ask] at h
      | succ k ih => simp [ask] at h; exact ih h
    · obtain ⟨j, h⟩ := book_commit h
      cases h

/-- There are as many calls as have been made. -/
theorem calls_length {acts : List SchedAct} {m : SchedM} (h : SchedReach acts m) : m.calls.length = (acts.filterMap askedFor).length := by
  induction acts using List.reverseRecOn generalizing m with
  | nil => simp only [SchedReach, runs, Option.some.injEq] at h; subst h; rfl
  | append_singleton acts a ih =>
    obtain ⟨m0, h0, h1⟩ := runs_snoc.1 h
    have := ih h0
    rw [List.filterMap_append, List.length_append, ← this]
    cases a <;> simp only [SchedM.step] at h1
    case call => cases h1; simp [askedFor]
    case stepDone => cases h1; simp [askedFor]
    case jobDone => cases h1; simp [askedFor]
    all_goals
      repeat' split at h1
      all_goals first | (cases h1; done) | (cases h1; simp [askedFor, SchedM.setCall])

theorem at_once (k n : Nat) : AtMostAtOnce k (ask k ++ book n) := by
  intro pre post m e hm
  refine Nat.le_trans List.countP_le_length ?_
  rw [calls_length hm]
  have h1 : ((ask k ++ book n).filterMap askedFor).length = k := by
    rw [List.filterMap_append, book_asked, List.append_nil, ← calls_length (ask_reach k)]
    exact decided_length k
  rw [e, List.filterMap_append, List.length_append] at h1
  omega

end BalanceEx

/-- **C125** The bound is sharp: `k` calls at a time can give one of two runners `k` steps and the other none. -/
theorem C125_sharp (k : Nat) : ∃ rs acts m a b, SchedReach acts m ∧ OneShot rs acts ∧ AtMostAtOnce k acts ∧ a ∈ rs ∧ b ∈ rs ∧
    a.supportDocker = true ∧ b.supportDocker = true ∧ given m.trace a.id = given m.trace b.id + k := by
  obtain ⟨m, h1, h2, h3, _⟩ := BalanceEx.book_reach k k (Nat.le_refl _)
  exact ⟨BalanceEx.rs, _, m, { id := "a" }, { id := "b" }, h1, BalanceEx.one_shot k k, BalanceEx.at_once k k, by simp [BalanceEx.rs],
    by simp [BalanceEx.rs], rfl, rfl, by rw [h2, h3]; omega⟩

/-- The hypotheses are met: two calls at a time, both given to the first runner (the second call decided before the first
booked). -/
example : ∃ m, SchedReach (BalanceEx.ask 2 ++ BalanceEx.book 2) m ∧ OneShot BalanceEx.rs (BalanceEx.ask 2 ++ BalanceEx.book 2) ∧
    AtMostAtOnce 2 (BalanceEx.ask 2 ++ BalanceEx.book 2) ∧ given m.trace "a" = 2 := by
  obtain ⟨m, h1, h2, _⟩ := BalanceEx.book_reach 2 2 (Nat.le_refl _)
  exact ⟨m, h1, BalanceEx.one_shot 2 2, BalanceEx.at_once 2 2, h2⟩

end AstroRun
