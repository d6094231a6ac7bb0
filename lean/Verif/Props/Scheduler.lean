import Verif.Lemmas.Scheduler

/-! # C44–C49: the default scheduler

Histories are arbitrary: any number of overlapping `schedule` calls with any lists of runners, and any
completion notifications in between. -/

namespace AstroRun
open Spec

/-- **C44** (partial) In every history, a runner returned by `schedule` was offered in that call; for a docker
step it has docker support, provided runners do not change it from one offer to the next; for a host step its
platform is the one asked for, and it has host support unless an earlier docker step of the same job went to that
very runner and the platform was given with its architecture.  Missing for the full claim: host support in
that last case, see `C44_refuted`. -/
theorem C44_capability_partial (acts : List SchedAct) (m : SchedM) (h : SchedReach acts m) (i : Nat)
    (rs : List RunnerMeta) (c : Command) (r : RunnerMeta) (hc : m.calls[i]? = some ⟨rs, c, .done (some r)⟩) :
    r ∈ rs ∧
    (WantsDocker c → StableRunners m → r.supportDocker = true) ∧
    (∀ name, WantsHost c name → PlatformOf r name ∧
      (r.supportHost = true ∨
        (name = "host/" ++ r.os ++ "-" ++ r.arch ∧
          ∃ c' r', .scheduled c' r' ∈ m.trace ∧ WantsDocker c' ∧ c'.id.jobId = c.id.jobId ∧ r'.id = r.id))) := by
  have hdec := (sched_reach h).2.someOk i _ hc r (.inr rfl)
  refine ⟨hdec.1, fun hd hst => dock_reach h hst i _ hc r (.inr rfl) hd, fun name hw => ?_⟩
  rcases hdec.2 with hcan | ⟨c', r', _, h1, h2, h3, h4, _, h6⟩
  · exact ⟨(hcan.1 name hw).2, .inl (hcan.1 name hw).1⟩
  · rcases h6 name hw with ⟨h7, h8⟩ | h7
    · exact ⟨.inl h8, .inl h7⟩
    · exact ⟨.inr h7, .inr ⟨h7, c', r', h1, h2, h3, h4⟩⟩

namespace SchedEx
/-- docker only -/
def dockerOnly : RunnerMeta := { id := "d", supportHost := false }
/-- both -/
def both : RunnerMeta := { id := "b" }
/-- host only -/
def hostOnly : RunnerMeta := { id := "h", supportDocker := false }
/-- A docker step. -/
def docker (job : Id) (n : Nat) : Command := { id := ⟨"w", job, n⟩ }
/-- A step on a host platform. -/
def host (job : Id) (n : Nat) (name : String) : Command :=
  { id := ⟨"w", job, n⟩, container := some ⟨name, none, none⟩ }
/-- The state a history leads to. -/
def after (acts : List SchedAct) : SchedM := (runs SchedM.step {} acts).getD {}
/-- A call without interruption by others: position, runners, step. -/
def call (i : Nat) (rs : List RunnerMeta) (c : Command) : List SchedAct := [.call rs c, .lookup i, .pick i, .commit i]
/-- The same for a step that is sent where its job's last docker step went. -/
def pinned (i : Nat) (rs : List RunnerMeta) (c : Command) : List SchedAct := [.call rs c, .lookup i, .commit i]
/-- A docker step of job `j`, then a host step of the same job. -/
def leakActs : List SchedAct :=
  call 0 [dockerOnly, both] (docker "j" 0) ++ pinned 1 [dockerOnly, both] (host "j" 1 "host/linux-x86_64")
/-- The same step scheduled twice, and completed twice. -/
def twiceActs : List SchedAct :=
  call 0 [both] (docker "j" 0) ++ pinned 1 [both] (docker "j" 0) ++ [.stepDone ⟨"w", "j", 0⟩, .stepDone ⟨"w", "j", 0⟩]
end SchedEx

/-- **C44 is false of the code**: a step asking for the host platform is given to a runner without host support,
because an earlier docker step of the job went there (`&&` and `||` group so that host support is not checked). -/
theorem C44_refuted : ∃ (acts : List SchedAct) (m : SchedM) (i : Nat) (rs : List RunnerMeta) (c : Command)
    (r : RunnerMeta) (name : String), SchedReach acts m ∧ StableRunners m ∧
    m.calls[i]? = some ⟨rs, c, .done (some r)⟩ ∧ WantsHost c name ∧ r.supportHost = false ∧
    ∃ r' ∈ rs, CanRun r' c := by
  refine ⟨SchedEx.leakActs, SchedEx.after SchedEx.leakActs, 1, [SchedEx.dockerOnly, SchedEx.both],
    SchedEx.host "j" 1 "host/linux-x86_64", SchedEx.dockerOnly, "host/linux-x86_64", rfl, ?_, rfl,
    ⟨⟨"host/linux-x86_64", none, none⟩, rfl, rfl, "linux-x86_64", by decide⟩, rfl, SchedEx.both, by decide, ?_, ?_⟩
  · intro c hc c' hc' r hr r' hr' _
    have : ∀ r ∈ [SchedEx.dockerOnly, SchedEx.both], r.supportDocker = true := by decide
    have hcalls : ∀ c ∈ (SchedEx.after SchedEx.leakActs).calls, c.runners = [SchedEx.dockerOnly, SchedEx.both] := by
      decide
    rw [this r (hcalls c hc ▸ hr), this r' (hcalls c' hc' ▸ hr')]
  · rintro name ⟨o, ho, rfl, _⟩
    cases ho
    exact ⟨rfl, .inr (by decide)⟩
  · intro hd
    exact absurd ⟨_, ⟨"host/linux-x86_64", none, none⟩, rfl, rfl, "linux-x86_64", by decide⟩ hd

open SchedEx in
example : SchedReach (call 0 [both, dockerOnly] (docker "j" 0) ++ call 1 [dockerOnly, hostOnly] (host "k" 0 "host/linux"))
      (after (call 0 [both, dockerOnly] (docker "j" 0) ++ call 1 [dockerOnly, hostOnly] (host "k" 0 "host/linux"))) ∧
    (after (call 0 [both, dockerOnly] (docker "j" 0) ++
      call 1 [dockerOnly, hostOnly] (host "k" 0 "host/linux"))).calls.map SchedCall.pc =
      [.done (some both), .done (some hostOnly)] := by
  refine ⟨rfl, by decide⟩

/-- Splitting a filtered list. -/
theorem filter_split {α : Type} {p : α → Bool} {l pre post : List α} {x : α} (h : l.filter p = pre ++ x :: post) :
    ∃ pre' post', l = pre' ++ x :: post' ∧ pre'.filter p = pre ∧ post'.filter p = post := by
  induction l generalizing pre with
  | nil => simp at h
  | cons y l ih =>
    rw [List.filter_cons] at h
    split at h
    · rename_i hy
      cases pre with
      | nil =>
        simp at h
        obtain ⟨rfl, h⟩ := h
        exact ⟨[], l, rfl, rfl, h⟩
      | cons z pre =>
        simp at h
        obtain ⟨rfl, h⟩ := h
        obtain ⟨a, b, rfl, h1, h2⟩ := ih h
        exact ⟨y :: a, b, rfl, by simp [hy, h1], h2⟩
    · rename_i hy
      obtain ⟨a, b, rfl, h1, h2⟩ := ih h
      exact ⟨y :: a, b, rfl, by simp [hy, h1], h2⟩

/-- **C45** A docker step whose job is not bound to an offered runner when `schedule` looks (state `m`): the runner
that the call then returns, if any, is a docker-capable offered one; at the moment `m2` of the decision no
docker-capable offered runner before it has as few running steps, and none after it has fewer.  The number of
running steps is the recorded one, which is the true one (C48) if no running step was scheduled again. -/
theorem C45_least_loaded (acts : List SchedAct) (m : SchedM) (h : SchedReach acts m) (i : Nat)
    (rs : List RunnerMeta) (c : Command) (hask : m.calls[i]? = some ⟨rs, c, .asked⟩) (hd : WantsDocker c)
    (hfree : ∀ rid, LastDocker m.trace c.id.jobId rid → ∀ r ∈ rs, r.id ≠ rid)
    (m1 : SchedM) (h1 : m.step (.lookup i) = some m1)
    (res : Option RunnerMeta) (later : List SchedAct) (m' : SchedM) (hl : runs SchedM.step m1 later = some m')
    (hdone : m'.calls[i]? = some ⟨rs, c, .done res⟩) :
    ∃ mid m2 rest, later = mid ++ .pick i :: rest ∧ runs SchedM.step m1 mid = some m2 ∧
      (NoReschedule m2.trace → ∀ r, (m2.st.runsCount.get? r).getD 0 = load m2.trace r) ∧
      ∀ r, res = some r → ∃ pre post, rs = pre ++ r :: post ∧ r.supportDocker = true ∧
        (∀ q ∈ pre, q.supportDocker = true →
          (m2.st.runsCount.get? r.id).getD 0 < (m2.st.runsCount.get? q.id).getD 0) ∧
        (∀ q ∈ post, q.supportDocker = true →
          (m2.st.runsCount.get? r.id).getD 0 ≤ (m2.st.runsCount.get? q.id).getD 0) := by
  have hst := (sched_reach h).1
  -- the look-up finds nothing
  have hm1 : m1 = m.setCall i .picking := by
    have hnone : (m.st.jobRunners.get? c.id.jobId).bind (findPinned rs c) = none := by
      cases hj : m.st.jobRunners.get? c.id.jobId with
      | none => rfl
      | some rid =>
        rw [Option.bind_some, findPinned_docker hd, List.find?_eq_none]
        intro r hr
        simpa using hfree rid ((hst.jobs _ _).1 hj) r hr
    simp only [SchedM.step, hask, hnone, Option.some.injEq] at h1
    exact h1.symm
  have hpick : m1.calls[i]? = some ⟨rs, c, .picking⟩ := by
    rw [hm1, getElem?_setCall, if_pos rfl, hask]; rfl
  have hreach1 : SchedReach (acts ++ [.lookup i]) m1 := runs_snoc.2 ⟨m, h, h1⟩
  obtain ⟨mid, m2, rest, e1, e2, e3⟩ := picking_to_done hl hpick hdone
  have hreach2 : SchedReach ((acts ++ [.lookup i]) ++ mid) m2 := by
    unfold SchedReach at hreach1 ⊢
    rw [runs_append, hreach1]; exact e2
  refine ⟨mid, m2, rest, e1, e2, (sched_reach hreach2).1.eq, ?_⟩
  rintro r rfl
  rw [pickRunner_docker hd] at e3
  obtain ⟨pre, post, f1, f2, f3⟩ := minByKey_spec e3.symm
  obtain ⟨pre', post', rfl, f4, f5⟩ := filter_split f1
  refine ⟨pre', post', rfl, ?_, ?_, ?_⟩
  · have : r ∈ (pre' ++ r :: post').filter fun r => r.supportDocker := by rw [f1]; simp
    exact (List.mem_filter.1 this).2
  · intro q hq hs
    exact f2 q (f4 ▸ List.mem_filter.2 ⟨hq, hs⟩)
  · intro q hq hs
    exact f3 q (f5 ▸ List.mem_filter.2 ⟨hq, hs⟩)

/-- **C45** The same in terms of what happened only: if no running step has been scheduled again up to the decision, the
runner chosen has fewer running steps than every docker-capable offered one before it, and no more than those after it;
`m2` is the state at the moment of the decision. -/
theorem C45_fewest_running (acts : List SchedAct) (m : SchedM) (h : SchedReach acts m) (i : Nat)
    (rs : List RunnerMeta) (c : Command) (hask : m.calls[i]? = some ⟨rs, c, .asked⟩) (hd : WantsDocker c)
    (hfree : ∀ rid, LastDocker m.trace c.id.jobId rid → ∀ r ∈ rs, r.id ≠ rid)
    (m1 : SchedM) (h1 : m.step (.lookup i) = some m1)
    (r : RunnerMeta) (later : List SchedAct) (m' : SchedM) (hl : runs SchedM.step m1 later = some m')
    (hdone : m'.calls[i]? = some ⟨rs, c, .done (some r)⟩) :
    ∃ mid m2 rest, later = mid ++ .pick i :: rest ∧ runs SchedM.step m1 mid = some m2 ∧
      ∃ pre post, rs = pre ++ r :: post ∧ r.supportDocker = true ∧
        (NoReschedule m2.trace →
          (∀ q ∈ pre, q.supportDocker = true → load m2.trace r.id < load m2.trace q.id) ∧
          (∀ q ∈ post, q.supportDocker = true → load m2.trace r.id ≤ load m2.trace q.id)) := by
  obtain ⟨mid, m2, rest, e1, e2, e3, e4⟩ :=
    C45_least_loaded acts m h i rs c hask hd hfree m1 h1 (some r) later m' hl hdone
  obtain ⟨pre, post, f1, f2, f3, f4⟩ := e4 r rfl
  refine ⟨mid, m2, rest, e1, e2, pre, post, f1, f2, fun hno => ⟨fun q hq hs => ?_, fun q hq hs => ?_⟩⟩
  · have := f3 q hq hs
    rw [e3 hno, e3 hno] at this
    exact Int.ofNat_lt.1 this
  · have := f4 q hq hs
    rw [e3 hno, e3 hno] at this
    exact Int.ofNat_le.1 this

open SchedEx in
/-- Three runners, the first without docker, one running step on the second: the third gets the next job. -/
example :
    let acts := call 0 [hostOnly, both, dockerOnly] (docker "j" 0) ++ [.call [hostOnly, both, dockerOnly] (docker "k" 0)]
    SchedReach acts (after acts) ∧
      (after acts).calls[1]? = some ⟨[hostOnly, both, dockerOnly], docker "k" 0, .asked⟩ ∧
      WantsDocker (docker "k" 0) ∧
      (∀ rid, LastDocker (after acts).trace (docker "k" 0).id.jobId rid → ∀ r ∈ [hostOnly, both, dockerOnly], r.id ≠ rid) ∧
      (after (acts ++ [.lookup 1, .pick 1, .commit 1])).calls[1]? =
        some ⟨[hostOnly, both, dockerOnly], docker "k" 0, .done (some dockerOnly)⟩ := by
  refine ⟨rfl, rfl, (wantsDocker_iff _).2 rfl, ?_, rfl⟩
  rintro rid ⟨pre, c, r, post, h1, _, h3, _⟩
  have hm : SchedEvent.scheduled c r ∈
      (after (call 0 [hostOnly, both, dockerOnly] (docker "j" 0))).trace := by
    have : (after (call 0 [hostOnly, both, dockerOnly] (docker "j" 0))).trace = pre ++ .scheduled c r :: post := h1
    rw [this]; simp
  have ht : (after (call 0 [hostOnly, both, dockerOnly] (docker "j" 0))).trace = [.scheduled (docker "j" 0) both] := by
    decide
  rw [ht] at hm
  simp at hm
  rw [hm.1] at h3
  exact absurd h3 (by decide)

/-- **C46** In every history: if, when `schedule` looks for a docker step of a job, the job's last docker step
went to the runner `rid` and the job has not completed since, and a runner with that id is offered, then the call
returns a runner with that id. -/
theorem C46_job_affinity (acts : List SchedAct) (m : SchedM) (h : SchedReach acts m) (i : Nat)
    (rs : List RunnerMeta) (c : Command) (hask : m.calls[i]? = some ⟨rs, c, .asked⟩) (hd : WantsDocker c)
    (rid : Id) (hlast : LastDocker m.trace c.id.jobId rid) (hoff : ∃ r ∈ rs, r.id = rid)
    (m1 : SchedM) (h1 : m.step (.lookup i) = some m1) (later : List SchedAct) (m' : SchedM)
    (hl : runs SchedM.step m1 later = some m') (res : Option RunnerMeta)
    (hdone : m'.calls[i]? = some ⟨rs, c, .done res⟩) :
    ∃ r, res = some r ∧ r ∈ rs ∧ r.id = rid := by
  have hj := ((sched_reach h).1.jobs _ _).2 hlast
  obtain ⟨r0, hr0, hid0⟩ := hoff
  cases hp : findPinned rs c rid with
  | none =>
    rw [findPinned_docker hd, List.find?_eq_none] at hp
    exact absurd (by simpa using hid0) (hp r0 hr0)
  | some r =>
    obtain ⟨h2, h3, _⟩ := findPinned_spec hp
    simp only [SchedM.step, hask, hj, Option.bind_some, hp, Option.some.injEq] at h1
    subst h1
    have := decided_stays (i := i) (rs := rs) (c := c) (r := some r) hl
      (.inl (by rw [getElem?_setCall, if_pos rfl, hask]; rfl))
    rcases this with h4 | h4 <;> rw [hdone] at h4 <;> simp at h4
    exact ⟨r, h4, h2, h3⟩

open SchedEx in
/-- The second docker step of job `j`, after a step of another job and a host step of the same job. -/
example :
    let acts := call 0 [both, dockerOnly] (docker "j" 0) ++ call 1 [both, dockerOnly] (docker "k" 0) ++
      pinned 2 [both, dockerOnly] (host "j" 1 "host/linux") ++ [.call [dockerOnly, both] (docker "j" 2)]
    SchedReach acts (after acts) ∧ (after acts).calls[3]? = some ⟨[dockerOnly, both], docker "j" 2, .asked⟩ ∧
      LastDocker (after acts).trace (docker "j" 2).id.jobId "b" ∧
      (after (acts ++ [.lookup 3, .commit 3])).calls[3]? =
        some ⟨[dockerOnly, both], docker "j" 2, .done (some both)⟩ := by
  refine ⟨rfl, rfl, ?_, rfl⟩
  refine ⟨[], docker "j" 0, both, [.scheduled (docker "k" 0) dockerOnly, .scheduled (host "j" 1 "host/linux") both],
    by decide, (wantsDocker_iff _).2 rfl, rfl, rfl, ?_, by decide⟩
  intro c' r' hm hw hj
  simp only [List.mem_cons, SchedEvent.scheduled.injEq, List.not_mem_nil, or_false] at hm
  rcases hm with ⟨rfl, _⟩ | ⟨rfl, _⟩
  · exact absurd hj (by decide)
  · rw [wantsDocker_iff] at hw; exact absurd hw (by decide)

/-- **C47** In every history: a call that returns no runner was offered none that can execute the step; and when
the job is not bound to an offered runner at the time of looking, a call returns a runner if and only if one of
the offered runners can execute the step, and the returned one can. -/
theorem C47_finds_iff_one_fits (acts : List SchedAct) (m : SchedM) (h : SchedReach acts m) (i : Nat)
    (rs : List RunnerMeta) (c : Command) :
    (m.calls[i]? = some ⟨rs, c, .done none⟩ → ∀ r ∈ rs, ¬ CanRun r c) ∧
    (m.calls[i]? = some ⟨rs, c, .asked⟩ →
      (∀ rid, LastDocker m.trace c.id.jobId rid → ∀ r ∈ rs, r.id ≠ rid) →
      ∀ m1, m.step (.lookup i) = some m1 → ∀ later m', runs SchedM.step m1 later = some m' →
      ∀ res, m'.calls[i]? = some ⟨rs, c, .done res⟩ →
        (res = none ↔ ∀ r ∈ rs, ¬ CanRun r c) ∧ ∀ r, res = some r → r ∈ rs ∧ CanRun r c) := by
  refine ⟨fun hc => (sched_reach h).2.noneOk i _ hc (.inr rfl), ?_⟩
  intro hask hfree m1 h1 later m' hl res hdone
  have hnone : (m.st.jobRunners.get? c.id.jobId).bind (findPinned rs c) = none := by
    cases hj : m.st.jobRunners.get? c.id.jobId with
    | none => rfl
    | some rid =>
      cases hp : findPinned rs c rid with
      | none => simp [hp]
      | some r =>
        obtain ⟨h2, h3, _⟩ := findPinned_spec hp
        exact absurd h3 (hfree rid (((sched_reach h).1.jobs _ _).1 hj) r h2)
  simp only [SchedM.step, hask, hnone, Option.some.injEq] at h1
  subst h1
  obtain ⟨mid, m2, rest, _, _, e3⟩ := picking_to_done hl
    (by rw [getElem?_setCall, if_pos rfl, hask]; rfl) hdone
  rw [e3]
  exact ⟨pickRunner_none, fun r hr => pickRunner_canRun hr⟩

open SchedEx in
example : (after (call 0 [dockerOnly] (host "j" 0 "host/linux"))).calls[0]? =
    some ⟨[dockerOnly], host "j" 0 "host/linux", .done none⟩ ∧
    (after (call 0 [dockerOnly, both] (host "j" 0 "host/linux"))).calls[0]? =
    some ⟨[dockerOnly, both], host "j" 0 "host/linux", .done (some both)⟩ := by decide

/-- **C47** A call never waits for other calls: whatever they do, each of its moves is possible. -/
theorem C47_calls_finish (m : SchedM) (i : Nat) (call : SchedCall) (hc : m.calls[i]? = some call)
    (hn : ∀ r, call.pc ≠ .done r) :
    ∃ acts m' res, (∀ a ∈ acts, a = .lookup i ∨ a = .pick i ∨ a = .commit i) ∧
      runs SchedM.step m acts = some m' ∧ m'.calls[i]? = some ⟨call.runners, call.cmd, .done res⟩ := by
  obtain ⟨rs, c, pc⟩ := call
  have hcommit : ∀ (m : SchedM) r, m.calls[i]? = some ⟨rs, c, .decided r⟩ →
      ∃ m', m.step (.commit i) = some m' ∧ m'.calls[i]? = some ⟨rs, c, .done r⟩ := by
    intro m r h
    cases r with
    | none => exact ⟨_, by simp only [SchedM.step, h]; rfl, by rw [getElem?_setCall, if_pos rfl, h]; rfl⟩
    | some r =>
      refine ⟨_, by simp only [SchedM.step, h]; rfl, ?_⟩
      show (m.setCall i _).calls[i]? = _
      rw [getElem?_setCall, if_pos rfl, h]; rfl
  have hpick : ∀ (m : SchedM), m.calls[i]? = some ⟨rs, c, .picking⟩ →
      ∃ m' r, m.step (.pick i) = some m' ∧ m'.calls[i]? = some ⟨rs, c, .decided r⟩ := by
    intro m h
    exact ⟨_, _, by simp only [SchedM.step, h]; rfl, by rw [getElem?_setCall, if_pos rfl, h]; rfl⟩
  have hlook : ∀ (m : SchedM), m.calls[i]? = some ⟨rs, c, .asked⟩ →
      ∃ m', m.step (.lookup i) = some m' ∧
        ((∃ r, m'.calls[i]? = some ⟨rs, c, .decided r⟩) ∨ m'.calls[i]? = some ⟨rs, c, .picking⟩) := by
    intro m h
    simp only [SchedM.step, h]
    split
    · exact ⟨_, rfl, .inl ⟨_, by rw [getElem?_setCall, if_pos rfl, h]; rfl⟩⟩
    · exact ⟨_, rfl, .inr (by rw [getElem?_setCall, if_pos rfl, h]; rfl)⟩
  cases pc with
  | done r => exact absurd rfl (hn r)
  | decided r =>
    obtain ⟨m', h1, h2⟩ := hcommit m r hc
    exact ⟨[.commit i], m', r, by simp, by simp [runs, h1], h2⟩
  | picking =>
    obtain ⟨m1, r, h1, h2⟩ := hpick m hc
    obtain ⟨m', h3, h4⟩ := hcommit m1 r h2
    exact ⟨[.pick i, .commit i], m', r, by simp, by simp [runs, h1, h3], h4⟩
  | asked =>
    obtain ⟨m0, h0, ⟨r, h2⟩ | h2⟩ := hlook m hc
    · obtain ⟨m', h3, h4⟩ := hcommit m0 r h2
      exact ⟨[.lookup i, .commit i], m', r, by simp, by simp [runs, h0, h3], h4⟩
    · obtain ⟨m1, r, h1, h2⟩ := hpick m0 h2
      obtain ⟨m', h3, h4⟩ := hcommit m1 r h2
      exact ⟨[.lookup i, .pick i, .commit i], m', r, by simp, by simp [runs, h0, h1, h3], h4⟩

/-- **C48** In every history in which no step is scheduled again while it is running, the recorded number for each
runner is the number of steps given to it that have not completed, and idle runners have no record.  In every
history whatever: recorded numbers are positive, and never smaller than the true ones. -/
theorem C48_load_accounting (acts : List SchedAct) (m : SchedM) (h : SchedReach acts m) (r : Id) :
    (NoReschedule m.trace →
      m.st.runsCount.get? r = if load m.trace r = 0 then none else some (load m.trace r : Int)) ∧
    (∀ n, m.st.runsCount.get? r = some n → 0 < n) ∧
    (load m.trace r : Int) ≤ (m.st.runsCount.get? r).getD 0 := by
  have inv := (sched_reach h).1
  refine ⟨fun hno => ?_, fun n hn => inv.pos r n hn, inv.ge r⟩
  have heq := inv.eq hno r
  cases hg : m.st.runsCount.get? r with
  | none => rw [hg] at heq; simp at heq; rw [if_pos (by omega)]
  | some n =>
    have := inv.pos r n hg
    rw [hg] at heq; simp at heq
    subst heq
    rw [if_neg (by omega)]

open SchedEx in
example :
    let acts := call 0 [both] (docker "j" 0) ++ call 1 [both] (docker "k" 0) ++ [.stepDone ⟨"w", "j", 0⟩]
    SchedReach acts (after acts) ∧ NoReschedule (after acts).trace ∧ load (after acts).trace "b" = 1 := by
  refine ⟨rfl, ?_, by decide⟩
  intro pre c r post h q hq
  have ht : (after (call 0 [both] (docker "j" 0) ++ call 1 [both] (docker "k" 0) ++ [.stepDone ⟨"w", "j", 0⟩])).trace =
    [.scheduled (docker "j" 0) both, .scheduled (docker "k" 0) both, .stepDone ⟨"w", "j", 0⟩] := by decide
  rw [ht] at h
  rcases pre with _ | ⟨e1, _ | ⟨e2, _ | ⟨e3, _ | ⟨e4, pre⟩⟩⟩⟩ <;> simp at h
  · simp [running] at hq
  · obtain ⟨rfl, ⟨rfl, rfl⟩, _⟩ := h
    simp [running, docker] at hq

/-- Beyond C48: scheduling a running step again (as the duplicate job runs of C02 do) leaves a runner recorded as
busy forever, although nothing runs. -/
theorem C48_leak_when_rescheduled : ∃ acts m r, SchedReach acts m ∧ running m.trace.reverse = [] ∧
    load m.trace r = 0 ∧ m.st.runsCount.get? r = some 1 := by
  exact ⟨SchedEx.twiceActs, SchedEx.after SchedEx.twiceActs, "b", rfl, by decide, by decide, by decide⟩

/-- **C49 is false of the code**: whatever limit a runner announces, there is a history without rescheduling in
which it has any given number of running steps. -/
theorem C49_refuted (r : RunnerMeta) (hr : r.supportDocker = true) (n : Nat) :
    ∃ acts m, SchedReach acts m ∧ NoReschedule m.trace ∧ load m.trace r.id = n ∧
      ∀ e ∈ m.trace, ∃ c, e = .scheduled c r := by
  suffices H : ∃ acts m, SchedReach acts m ∧ NoReschedule m.trace ∧ load m.trace r.id = n ∧
      (∀ e ∈ m.trace, ∃ c, e = .scheduled c r) ∧ ∀ p ∈ running m.trace.reverse, p.1.number < n by
    obtain ⟨acts, m, h1, h2, h3, h4, _⟩ := H
    exact ⟨acts, m, h1, h2, h3, h4⟩
  induction n with
  | zero =>
    refine ⟨[], {}, rfl, ?_, rfl, by simp, by simp [running]⟩
    intro pre c r post h
    simp at h
  | succ n ih =>
    obtain ⟨acts, m, h1, h2, h3, h4, h5⟩ := ih
    let c : Command := { id := ⟨"w", "j", n⟩ }
    have hd : WantsDocker c := (wantsDocker_iff _).2 rfl
    have hres : (m.st.schedule [r] c).2 = some r := by
      have hp : pickRunner m.st.runsCount [r] c = some r := by
        rw [pickRunner_docker hd]; simp [pickDockerRunner, hr, minByKey]
      unfold SchedState.schedule
      cases hb : (m.st.jobRunners.get? c.id.jobId).bind (findPinned [r] c) with
      | none => simp [hp]
      | some q =>
        obtain ⟨last, _, hq⟩ := Option.bind_eq_some_iff.1 hb
        have := (findPinned_spec hq).1
        simp at this
        simp [this]
    obtain ⟨acts', m', e1, e2, e3, e4⟩ := schedule_is_history m [r] c
    rw [hres] at e4
    simp only at e4
    have hnew : ∀ q, (c.id, q) ∉ running m.trace.reverse := fun q hq => absurd (h5 _ hq) (by simp [c])
    refine ⟨acts ++ acts', m', ?_, ?_, ?_, ?_, ?_⟩
    · unfold SchedReach at h1 ⊢; rw [runs_append, h1]; exact e1
    · rw [e4]
      intro pre c' r' post h q
      rcases List.eq_nil_or_concat post with rfl | ⟨p, x, rfl⟩
      · obtain ⟨rfl, hx⟩ := List.append_inj' h rfl
        simp at hx
        rw [← hx.1]; exact hnew q
      · have h' : m.trace ++ [.scheduled c r] = (pre ++ .scheduled c' r' :: p) ++ [x] := by simpa using h
        obtain ⟨h'', _⟩ := List.append_inj' h' rfl
        exact h2 pre c' r' p h'' q
    · have := load_scheduled m.trace c r r.id
      rw [if_neg (hnew _), if_pos rfl, h3] at this
      rw [e4]; exact this
    · rw [e4]
      intro e he
      simp only [List.mem_append, List.mem_singleton] at he
      rcases he with he | rfl
      · exact h4 e he
      · exact ⟨c, rfl⟩
    · rw [e4]
      intro p hp
      simp only [List.reverse_append, List.reverse_singleton, List.singleton_append, running, List.mem_cons,
        List.mem_filter] at hp
      rcases hp with rfl | ⟨hp, _⟩
      · exact Nat.lt_succ_self n
      · exact Nat.lt_succ_of_lt (h5 p hp)

example : SchedEx.both.supportDocker = true ∧ SchedEx.both.maxRuns = 1 := ⟨rfl, rfl⟩

/-- **C49** The limit is never looked at: changing every runner's limit changes neither the choice nor the
scheduler's state. -/
theorem C49_limit_ignored (limit : RunnerMeta → Int) (s : SchedState) (rs : List RunnerMeta) (c : Command) :
    let f : RunnerMeta → RunnerMeta := fun r => ⟨r.id, r.os, r.arch, r.supportDocker, r.supportHost, r.version, limit r⟩
    (s.schedule (rs.map f) c).1 = (s.schedule rs c).1 ∧ (s.schedule (rs.map f) c).2 = ((s.schedule rs c).2).map f := by
  intro f
  have hp : ∀ last, findPinned (rs.map f) c last = (findPinned rs c last).map f := by
    intro last
    simp only [findPinned, List.find?_map]
    rfl
  have hd : ∀ counts, pickDockerRunner counts (rs.map f) = (pickDockerRunner counts rs).map f := by
    intro counts
    simp only [pickDockerRunner, List.filter_map]
    have : ∀ l : List RunnerMeta, minByKey (fun r => (counts.get? r.id).getD 0) (l.map f) =
        (minByKey (fun r => (counts.get? r.id).getD 0) l).map f := by
      intro l
      cases l with
      | nil => rfl
      | cons x xs =>
        simp only [List.map_cons, minByKey, Option.map_some, Option.some.injEq]
        induction xs generalizing x with
        | nil => rfl
        | cons y ys ih =>
          simp only [List.map_cons, List.foldl_cons]
          rw [← ih]
          congr 1
          show (if (counts.get? y.id).getD 0 < (counts.get? x.id).getD 0 then f y else f x) = _
          split <;> rfl
    exact this _
  have hh : ∀ name, pickHostRunner (rs.map f) name = (pickHostRunner rs name).map f := by
    intro name
    simp only [pickHostRunner, List.filter_map, List.find?_map]
    rfl
  have hpick : ∀ counts, pickRunner counts (rs.map f) c = (pickRunner counts rs c).map f := by
    intro counts
    unfold pickRunner
    cases c.container with
    | none => exact hd counts
    | some o => simp only; split <;> simp [hd, hh]
  have hbind : (s.jobRunners.get? c.id.jobId).bind (findPinned (rs.map f) c) =
      ((s.jobRunners.get? c.id.jobId).bind (findPinned rs c)).map f := by
    cases s.jobRunners.get? c.id.jobId with
    | none => rfl
    | some last => simp [hp]
  unfold SchedState.schedule
  rw [hbind, hpick]
  cases (s.jobRunners.get? c.id.jobId).bind (findPinned rs c) with
  | some r => exact ⟨rfl, rfl⟩
  | none =>
    cases pickRunner s.runsCount rs c with
    | some r => exact ⟨rfl, rfl⟩
    | none => exact ⟨rfl, rfl⟩

end AstroRun
