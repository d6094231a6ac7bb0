import Verif.Spec.Scheduler
import Verif.Lemmas.Map
import Verif.Lemmas.Run
import Mathlib.Data.List.Induction
import Mathlib.Logic.Basic

namespace AstroRun
open Spec

theorem isHostName_iff (name : String) : isHostName name = true ↔ ∃ rest, name = "host/" ++ rest := by
  unfold isHostName
  rw [List.isPrefixOf_iff_prefix]
  constructor
  · rintro ⟨t, ht⟩
    refine ⟨String.ofList t, ?_⟩
    apply String.ext
    rw [String.toList_append, String.toList_ofList (l := t)]; exact ht.symm
  · rintro ⟨rest, rfl⟩
    exact ⟨rest.toList, by rw [String.toList_append]⟩

theorem wantsHost_of {c : Command} {o : ContainerOptions} (h : c.container = some o) (hh : isHostName o.name = true) :
    WantsHost c o.name := ⟨o, h, rfl, (isHostName_iff _).1 hh⟩

theorem runsOnHost_iff (c : Command) : runsOnHost c = true ↔ ∃ name, WantsHost c name := by
  unfold runsOnHost
  cases h : c.container with
  | none => simp [WantsHost, h]
  | some o =>
    simp only [Option.map_some, Option.getD_some]
    constructor
    · intro hh; exact ⟨_, wantsHost_of h hh⟩
    · rintro ⟨name, o', ho, rfl, hr⟩
      rw [h] at ho; cases ho
      exact (isHostName_iff _).2 hr

theorem wantsDocker_iff (c : Command) : WantsDocker c ↔ runsOnHost c = false := by
  rw [← Bool.not_eq_true, runsOnHost_iff]; rfl

theorem wantsDocker_iff' (c : Command) : WantsDocker c ↔ ∀ o, c.container = some o → isHostName o.name = false := by
  rw [wantsDocker_iff]
  unfold runsOnHost
  cases h : c.container <;> simp

theorem host_container {c : Command} {name : String} (h : WantsHost c name) :
    ∃ o, c.container = some o ∧ o.name = name ∧ isHostName name = true := by
  obtain ⟨o, h1, h2, h3⟩ := h
  exact ⟨o, h1, h2, (isHostName_iff _).2 h3⟩

theorem wantsHost_unique {c : Command} {n n' : String} (h : WantsHost c n) (h' : WantsHost c n') : n = n' := by
  obtain ⟨o, h1, h2, _⟩ := h
  obtain ⟨o', h1', h2', _⟩ := h'
  rw [h1] at h1'; cases h1'
  rw [← h2, ← h2']

/-! ## `minByKey` -/

theorem foldl_min_spec {α : Type} (key : α → Int) (xs : List α) (x : α) :
    ∃ pre m post, x :: xs = pre ++ m :: post ∧
      xs.foldl (fun m y => if key y < key m then y else m) x = m ∧
      (∀ y ∈ pre, key m < key y) ∧ (∀ y ∈ post, key m ≤ key y) := by
  induction xs using List.reverseRecOn with
  | nil => exact ⟨[], x, [], rfl, rfl, by simp, by simp⟩
  | append_singleton xs y ih =>
    obtain ⟨pre, m, post, h1, h2, h3, h4⟩ := ih
    rw [List.foldl_append, List.foldl_cons, List.foldl_nil, h2]
    by_cases hlt : key y < key m
    · refine ⟨x :: xs, y, [], by simp, by rw [if_pos hlt], ?_, by simp⟩
      rw [h1]
      intro z hz
      simp only [List.mem_append, List.mem_cons] at hz
      rcases hz with hz | rfl | hz
      · exact Int.lt_trans hlt (h3 z hz)
      · exact hlt
      · exact Int.lt_of_lt_of_le hlt (h4 z hz)
    · refine ⟨pre, m, post ++ [y], ?_, by rw [if_neg hlt], h3, ?_⟩
      · rw [← List.cons_append, h1]; simp
      · intro z hz
        simp only [List.mem_append, List.mem_singleton] at hz
        rcases hz with hz | rfl
        · exact h4 z hz
        · exact Int.not_lt.1 hlt

theorem minByKey_none {α : Type} (key : α → Int) (l : List α) : minByKey key l = none ↔ l = [] := by
  cases l <;> simp [minByKey]

theorem minByKey_spec {α : Type} {key : α → Int} {l : List α} {m : α} (h : minByKey key l = some m) :
    ∃ pre post, l = pre ++ m :: post ∧ (∀ y ∈ pre, key m < key y) ∧ (∀ y ∈ post, key m ≤ key y) := by
  cases l with
  | nil => simp [minByKey] at h
  | cons x xs =>
    simp only [minByKey, Option.some.injEq] at h
    obtain ⟨pre, m', post, h1, h2, h3, h4⟩ := foldl_min_spec key xs x
    rw [h2] at h; subst h
    exact ⟨pre, post, h1, h3, h4⟩

/-! ## The pickers -/

theorem findPinned_spec {rs : List RunnerMeta} {c : Command} {last : Id} {r : RunnerMeta}
    (h : findPinned rs c last = some r) :
    r ∈ rs ∧ r.id = last ∧ ∀ name, WantsHost c name →
      (r.supportHost = true ∧ name = "host/" ++ r.os) ∨ name = "host/" ++ r.os ++ "-" ++ r.arch := by
  unfold findPinned at h
  have hp := List.find?_some h
  have hm := List.mem_of_find?_eq_some h
  split at hp
  · rename_i hid
    refine ⟨hm, hid, fun name hw => ?_⟩
    obtain ⟨o, ho, hn, hh⟩ := host_container hw
    subst hn
    rw [ho] at hp
    simp only [hh, if_true, Bool.or_eq_true, Bool.and_eq_true, beq_iff_eq] at hp
    exact hp
  · simp at hp

theorem findPinned_docker {rs : List RunnerMeta} {c : Command} {last : Id} (hd : WantsDocker c) :
    findPinned rs c last = rs.find? fun r => decide (r.id = last) := by
  unfold findPinned
  congr 1
  funext r
  rw [wantsDocker_iff'] at hd
  cases hc : c.container with
  | none => simp
  | some o => simp [hd o hc]

theorem pickRunner_docker {counts : AMap Id Int} {rs : List RunnerMeta} {c : Command} (hd : WantsDocker c) :
    pickRunner counts rs c = pickDockerRunner counts rs := by
  unfold pickRunner
  rw [wantsDocker_iff'] at hd
  cases hc : c.container with
  | none => rfl
  | some o => simp [hd o hc]

theorem pickRunner_host {counts : AMap Id Int} {rs : List RunnerMeta} {c : Command} {name : String}
    (h : WantsHost c name) : pickRunner counts rs c = pickHostRunner rs name := by
  obtain ⟨o, ho, rfl, hh⟩ := host_container h
  simp [pickRunner, ho, hh]

theorem pickRunner_canRun {counts : AMap Id Int} {rs : List RunnerMeta} {c : Command} {r : RunnerMeta}
    (h : pickRunner counts rs c = some r) : r ∈ rs ∧ CanRun r c := by
  by_cases hd : WantsDocker c
  · rw [pickRunner_docker hd] at h
    obtain ⟨pre, post, h1, _⟩ := minByKey_spec h
    have hm : r ∈ rs.filter fun r => r.supportDocker := by rw [h1]; simp
    exact ⟨(List.mem_filter.1 hm).1, fun name hw => absurd ⟨name, hw⟩ hd, fun _ => (List.mem_filter.1 hm).2⟩
  · obtain ⟨name, hw⟩ := not_not.1 hd
    rw [pickRunner_host hw] at h
    have hp := List.find?_some h
    have hm := List.mem_filter.1 (List.mem_of_find?_eq_some h)
    simp only [Bool.or_eq_true, beq_iff_eq] at hp
    refine ⟨hm.1, fun name' hw' => ?_, fun hd' => absurd hd' hd⟩
    cases wantsHost_unique hw hw'
    exact ⟨hm.2, hp⟩

theorem pickRunner_none {counts : AMap Id Int} {rs : List RunnerMeta} {c : Command} :
    pickRunner counts rs c = none ↔ ∀ r ∈ rs, ¬ CanRun r c := by
  constructor
  · intro h r hr hc
    by_cases hd : WantsDocker c
    · rw [pickRunner_docker hd] at h
      unfold pickDockerRunner at h
      rw [minByKey_none, List.filter_eq_nil_iff] at h
      exact h r hr (hc.2 hd)
    · obtain ⟨name, hw⟩ := not_not.1 hd
      rw [pickRunner_host hw] at h
      unfold pickHostRunner at h
      rw [List.find?_eq_none] at h
      obtain ⟨h1, h2⟩ := hc.1 name hw
      have := h r (List.mem_filter.2 ⟨hr, h1⟩)
      simp only [Bool.or_eq_true, beq_iff_eq] at this
      exact this h2
  · intro h
    cases hp : pickRunner counts rs c with
    | none => rfl
    | some r => exact absurd (pickRunner_canRun hp).2 (h r (pickRunner_canRun hp).1)

/-! ## Invariants of all histories -/

/-- What is known about a call that has been decided for `r`. -/
def Decided (m : SchedM) (rs : List RunnerMeta) (c : Command) (r : RunnerMeta) : Prop :=
  r ∈ rs ∧
  (CanRun r c ∨
    (∃ c' r' rs', .scheduled c' r' ∈ m.trace ∧ WantsDocker c' ∧ c'.id.jobId = c.id.jobId ∧ r'.id = r.id ∧
      (∃ call ∈ m.calls, call.runners = rs' ∧ r' ∈ rs') ∧
      ∀ name, WantsHost c name →
        (r.supportHost = true ∧ name = "host/" ++ r.os) ∨ name = "host/" ++ r.os ++ "-" ++ r.arch))

theorem LastDocker.nil {j : JobId} {rid : Id} : ¬ LastDocker [] j rid := by
  rintro ⟨pre, c, r, post, h, _⟩
  simp at h

theorem lastDocker_snoc {tr : List SchedEvent} {e : SchedEvent} {j : JobId} {rid : Id} :
    LastDocker (tr ++ [e]) j rid ↔
      (∃ c r, e = .scheduled c r ∧ WantsDocker c ∧ c.id.jobId = j ∧ r.id = rid) ∨
      (LastDocker tr j rid ∧ (∀ c r, e = .scheduled c r → WantsDocker c → c.id.jobId ≠ j) ∧ e ≠ .jobDone j) := by
  constructor
  · rintro ⟨pre, c, r, post, h, h1, h2, h3, h4, h5⟩
    rcases List.eq_nil_or_concat post with rfl | ⟨p, x, rfl⟩
    · left
      have := List.append_inj_right' h rfl
      simp at this
      exact ⟨c, r, this, h1, h2, h3⟩
    · right
      have h' : tr ++ [e] = (pre ++ .scheduled c r :: p) ++ [x] := by simpa using h
      obtain ⟨rfl, hx⟩ := List.append_inj' h' rfl
      simp at hx; subst hx
      refine ⟨⟨pre, c, r, p, rfl, h1, h2, h3, fun c' r' hm => h4 c' r' (by simp [hm]), fun hm => h5 (by simp [hm])⟩,
        fun c' r' he hw => h4 c' r' (by simp [he]) hw, fun he => h5 (by simp [he])⟩
  · rintro (⟨c, r, rfl, h1, h2, h3⟩ | ⟨⟨pre, c, r, post, rfl, h1, h2, h3, h4, h5⟩, h6, h7⟩)
    · exact ⟨tr, c, r, [], by simp, h1, h2, h3, by simp, by simp⟩
    · refine ⟨pre, c, r, post ++ [e], by simp, h1, h2, h3, ?_, ?_⟩
      · intro c' r' hm hw
        simp only [List.mem_append, List.mem_singleton] at hm
        rcases hm with hm | hm
        · exact h4 c' r' hm hw
        · exact h6 c' r' hm.symm hw
      · simp only [List.mem_append, List.mem_singleton, not_or]
        exact ⟨h5, fun h => h7 h.symm⟩

theorem NoReschedule.prefix {tr : List SchedEvent} {e : SchedEvent} (h : NoReschedule (tr ++ [e])) :
    NoReschedule tr := by
  rintro pre c r post rfl
  exact h pre c r (post ++ [e]) (by simp)

theorem running_nodup (tr : List SchedEvent) : ((running tr).map Prod.fst).Nodup := by
  induction tr with
  | nil => simp [running]
  | cons e tr ih =>
    cases e with
    | scheduled c r =>
      simp only [running, List.map_cons, List.nodup_cons]
      refine ⟨?_, (List.filter_sublist.map _).nodup ih⟩
      simp
    | stepDone id => exact (List.filter_sublist.map _).nodup ih
    | jobDone id => exact ih

theorem count_erase {l : List (StepId × Id)} (h : (l.map Prod.fst).Nodup) (id : StepId) (r : Id) :
    ((l.filter fun p => !decide (p.1 = id)).filter fun p => decide (p.2 = r)).length +
      (if (id, r) ∈ l then 1 else 0) = (l.filter fun p => decide (p.2 = r)).length := by
  induction l with
  | nil => simp
  | cons x l ih =>
    obtain ⟨a, b⟩ := x
    simp only [List.map_cons, List.nodup_cons] at h
    have ih := ih h.2
    by_cases ha : a = id
    · subst ha
      have hnot : ∀ q, (a, q) ∉ l := fun q hq => h.1 (List.mem_map.2 ⟨_, hq, rfl⟩)
      rw [if_neg (hnot r)] at ih
      by_cases hb : b = r
      · subst hb; simp [← ih]
      · have : ¬ (r = b) := fun h => hb h.symm
        simp [hb, this, hnot r, ← ih]
    · have hne : ¬ (id = a) := fun h => ha h.symm
      by_cases hb : b = r
      · subst hb; simp [ha, hne, ← ih]; omega
      · simp [ha, hb, hne, ← ih]

theorem load_stepDone (tr : List SchedEvent) (id : StepId) (r : Id) :
    load (tr ++ [.stepDone id]) r + (if (id, r) ∈ running tr.reverse then 1 else 0) = load tr r := by
  simp only [load, List.reverse_append, List.reverse_singleton, List.singleton_append, running]
  exact count_erase (running_nodup _) id r

theorem load_jobDone (tr : List SchedEvent) (j : JobId) (r : Id) : load (tr ++ [.jobDone j]) r = load tr r := by
  simp only [load, List.reverse_append, List.reverse_singleton, List.singleton_append, running]

theorem load_scheduled (tr : List SchedEvent) (c : Command) (r' : RunnerMeta) (r : Id) :
    load (tr ++ [.scheduled c r']) r + (if (c.id, r) ∈ running tr.reverse then 1 else 0) =
      load tr r + (if r'.id = r then 1 else 0) := by
  simp only [load, List.reverse_append, List.reverse_singleton, List.singleton_append, running]
  have := count_erase (running_nodup tr.reverse) c.id r
  by_cases h : r'.id = r
  · simp only [List.filter_cons, h, decide_true, if_true, List.length_cons]; omega
  · simp only [List.filter_cons, h, decide_false, if_false, Bool.false_eq_true]; omega

/-- The scheduler's tables, without the calls. -/
structure TableInv (st : SchedState) (tr : List SchedEvent) : Prop where
  steps : st.stepRunners = running tr.reverse
  jobs : ∀ j rid, st.jobRunners.get? j = some rid ↔ LastDocker tr j rid
  pos : ∀ r n, st.runsCount.get? r = some n → 1 ≤ n
  ge : ∀ r, (load tr r : Int) ≤ (st.runsCount.get? r).getD 0
  eq : NoReschedule tr → ∀ r, (st.runsCount.get? r).getD 0 = load tr r

theorem TableInv.init : TableInv {} [] where
  steps := rfl
  jobs := fun j rid => by simp [LastDocker.nil]
  pos := by simp
  ge := by simp [load, running]
  eq := by simp [load, running]

theorem TableInv.commit {st : SchedState} {tr : List SchedEvent} (h : TableInv st tr) (c : Command) (r : RunnerMeta) :
    TableInv (st.commit c r) (tr ++ [.scheduled c r]) where
  steps := by
    simp only [SchedState.commit, AMap.insert, AMap.erase, h.steps, List.reverse_append, List.reverse_singleton,
      List.singleton_append, running]
  jobs := by
    intro j rid
    rw [lastDocker_snoc]
    simp only [SchedState.commit]
    by_cases hh : runsOnHost c = true
    · have hd : ¬ WantsDocker c := by rw [wantsDocker_iff]; simp [hh]
      rw [if_pos hh, h.jobs]
      constructor
      · intro hl
        refine .inr ⟨hl, fun c' r' he => ?_, by simp⟩
        cases he; exact fun hw => absurd hw hd
      · rintro (⟨c', r', he, hw, _⟩ | ⟨hl, _⟩)
        · cases he; exact absurd hw hd
        · exact hl
    · have hd : WantsDocker c := by rw [wantsDocker_iff]; simpa using hh
      rw [if_neg hh, AMap.get?_insert]
      by_cases hj : c.id.jobId = j
      · rw [if_pos hj]
        constructor
        · intro he; cases he; exact .inl ⟨c, r, rfl, hd, hj, rfl⟩
        · rintro (⟨c', r', he, _, _, hr⟩ | ⟨_, hn, _⟩)
          · cases he; rw [hr]
          · exact absurd hj (hn c r rfl hd)
      · rw [if_neg hj, h.jobs]
        constructor
        · intro hl
          refine .inr ⟨hl, fun c' r' he _ => ?_, by simp⟩
          cases he; exact hj
        · rintro (⟨c', r', he, _, hc, _⟩ | ⟨hl, _⟩)
          · cases he; exact absurd hc hj
          · exact hl
  pos := by
    intro q n hg
    simp only [SchedState.commit, AMap.get?_insert] at hg
    split at hg
    · cases hg
      cases hr : st.runsCount.get? r.id with
      | none => simp
      | some k => have := h.pos _ _ hr; simp; omega
    · exact h.pos _ _ hg
  ge := by
    intro q
    have hl := load_scheduled tr c r q
    have hge := h.ge q
    simp only [SchedState.commit, AMap.get?_insert]
    by_cases hq : r.id = q
    · subst hq; simp only [if_true, Option.getD_some] at hl ⊢; split at hl <;> omega
    · simp only [hq, if_false] at hl ⊢; split at hl <;> omega
  eq := by
    intro hno q
    have hl := load_scheduled tr c r q
    have heq := h.eq (NoReschedule.prefix hno) q
    rw [if_neg (hno tr c r [] (by simp) q)] at hl
    simp only [SchedState.commit, AMap.get?_insert]
    by_cases hq : r.id = q
    · subst hq; simp only [if_true, Option.getD_some] at hl ⊢; omega
    · simp only [hq, if_false] at hl ⊢; omega

theorem TableInv.jobDone {st : SchedState} {tr : List SchedEvent} (h : TableInv st tr) (id : JobId) :
    TableInv (st.jobCompleted id) (tr ++ [.jobDone id]) where
  steps := by
    simp only [SchedState.jobCompleted, h.steps, List.reverse_append, List.reverse_singleton,
      List.singleton_append, running]
  jobs := by
    intro j rid
    rw [lastDocker_snoc]
    simp only [SchedState.jobCompleted, AMap.get?_erase]
    by_cases hj : id = j
    · subst hj; simp
    · simp [hj, h.jobs]
  pos := h.pos
  ge := fun r => by rw [load_jobDone]; exact h.ge r
  eq := fun hno r => by rw [load_jobDone]; exact h.eq (NoReschedule.prefix hno) r

theorem TableInv.stepDone {st : SchedState} {tr : List SchedEvent} (h : TableInv st tr) (id : StepId) :
    TableInv (st.stepCompleted id) (tr ++ [.stepDone id]) := by
  have hnd := running_nodup tr.reverse
  have hget : ∀ q, st.stepRunners.get? id = some q ↔ (id, q) ∈ running tr.reverse := by
    intro q
    rw [h.steps]
    exact ⟨AMap.mem_of_get?, AMap.get?_of_mem (m := running tr.reverse) hnd⟩
  have hcount : ∀ q, ((st.stepCompleted id).runsCount.get? q).getD 0 =
      (st.runsCount.get? q).getD 0 - (if (id, q) ∈ running tr.reverse then 1 else 0) ∧
      (∀ n, (st.stepCompleted id).runsCount.get? q = some n → 1 ≤ n) := by
    intro q
    unfold SchedState.stepCompleted
    cases hs : st.stepRunners.get? id with
    | none =>
      have : (id, q) ∉ running tr.reverse := fun hm => by rw [(hget q).2 hm] at hs; cases hs
      simp only [this, if_false]
      exact ⟨by omega, h.pos q⟩
    | some r =>
      have hr := (hget r).1 hs
      have hload : 1 ≤ load tr r := by
        have := load_stepDone tr id r
        rw [if_pos hr] at this; omega
      have hge := h.ge r
      cases hc : st.runsCount.get? r with
      | none => rw [hc] at hge; simp at hge; omega
      | some n =>
        simp only [hc]
        by_cases hq : r = q
        · subst hq
          rw [if_pos hr]
          by_cases hn : n - 1 ≤ 0
          · rw [if_pos hn, AMap.get?_erase_self, hc]
            have := h.pos r n hc
            simp; omega
          · rw [if_neg hn, AMap.get?_insert_self, hc]
            simp; omega
        · have hnm : (id, q) ∉ running tr.reverse := fun hm => by
            rw [(hget q).2 hm] at hs; cases hs; exact hq rfl
          rw [if_neg hnm]
          by_cases hn : n - 1 ≤ 0
          · rw [if_pos hn, AMap.get?_erase, if_neg hq]
            exact ⟨by omega, h.pos q⟩
          · rw [if_neg hn, AMap.get?_insert, if_neg hq]
            exact ⟨by omega, h.pos q⟩
  refine ⟨?_, ?_, fun r n hg => (hcount r).2 n hg, fun r => ?_, fun hno r => ?_⟩
  · have : (st.stepCompleted id).stepRunners = st.stepRunners.erase id := by
      unfold SchedState.stepCompleted
      split <;> rfl
    rw [this, h.steps]
    simp only [AMap.erase, List.reverse_append, List.reverse_singleton, List.singleton_append, running]
  · intro j rid
    have : (st.stepCompleted id).jobRunners = st.jobRunners := by
      unfold SchedState.stepCompleted
      split <;> rfl
    rw [this, h.jobs, lastDocker_snoc]
    simp
  · rw [(hcount r).1]
    have := load_stepDone tr id r
    have := h.ge r
    split <;> simp_all <;> omega
  · rw [(hcount r).1, h.eq (NoReschedule.prefix hno) r]
    have := load_stepDone tr id r
    split <;> simp_all <;> omega

/-! ## The machine -/

/-- What is known about the calls. -/
structure CallInv (m : SchedM) : Prop where
  noneOk : ∀ (i : Nat) call, m.calls[i]? = some call → call.pc = .decided none ∨ call.pc = .done none →
    ∀ r ∈ call.runners, ¬ CanRun r call.cmd
  someOk : ∀ (i : Nat) call, m.calls[i]? = some call →
    ∀ r, call.pc = .decided (some r) ∨ call.pc = .done (some r) → Decided m call.runners call.cmd r
  sched : ∀ c r, .scheduled c r ∈ m.trace →
    ∃ (i : Nat) (call : SchedCall), m.calls[i]? = some call ∧ call.cmd = c ∧ call.pc = .done (some r)

theorem getElem?_setCall {m : SchedM} {i j : Nat} {pc : SchedPc} :
    (m.setCall i pc).calls[j]? = if i = j then (m.calls[j]?).map (fun c => { c with pc := pc }) else m.calls[j]? := by
  simp only [SchedM.setCall, List.getElem?_modify]
  by_cases h : i = j
  · simp [h]
  · simp [h]

theorem Decided.mono {m m' : SchedM} {rs : List RunnerMeta} {c : Command} {r : RunnerMeta} (h : Decided m rs c r)
    (ht : ∀ e ∈ m.trace, e ∈ m'.trace)
    (hc : ∀ call ∈ m.calls, ∃ call' ∈ m'.calls, call'.runners = call.runners) : Decided m' rs c r := by
  refine ⟨h.1, h.2.imp id ?_⟩
  rintro ⟨c', r', rs', h1, h2, h3, h4, ⟨call, h5, h6, h7⟩, h8⟩
  obtain ⟨call', h9, h10⟩ := hc call h5
  exact ⟨c', r', rs', ht _ h1, h2, h3, h4, ⟨call', h9, by rw [h10]; exact h6, h7⟩, h8⟩

theorem calls_setCall {m : SchedM} {i : Nat} {pc : SchedPc} :
    ∀ call ∈ m.calls, ∃ call' ∈ (m.setCall i pc).calls, call'.runners = call.runners := by
  intro call hm
  obtain ⟨j, hj⟩ := List.mem_iff_getElem?.1 hm
  have := getElem?_setCall (m := m) (i := i) (j := j) (pc := pc)
  rw [hj] at this
  split at this
  · exact ⟨_, List.mem_of_getElem? this, rfl⟩
  · exact ⟨_, List.mem_of_getElem? this, rfl⟩

theorem getElem?_append_cases {α : Type} {l l' : List α} {i : Nat} {x : α} (h : (l ++ l')[i]? = some x) :
    l[i]? = some x ∨ l.length ≤ i ∧ l'[i - l.length]? = some x := by
  by_cases hi : i < l.length
  · left; rwa [List.getElem?_append_left hi] at h
  · right; rw [List.getElem?_append_right (Nat.le_of_not_lt hi)] at h; exact ⟨Nat.le_of_not_lt hi, h⟩

theorem CallInv.init : CallInv {} where
  noneOk := by simp
  someOk := by simp
  sched := by simp

theorem CallInv.step {m m' : SchedM} {a : SchedAct} (ht : TableInv m.st m.trace) (h : CallInv m)
    (hs : m.step a = some m') : TableInv m'.st m'.trace ∧ CallInv m' := by
  cases a with
  | call rs c =>
    simp only [SchedM.step, Option.some.injEq] at hs
    subst hs
    refine ⟨ht, ?_, ?_, ?_⟩
    · intro i call hc hpc
      rcases getElem?_append_cases hc with h1 | ⟨_, h1⟩
      · exact h.noneOk i call h1 hpc
      · rw [List.mem_singleton.1 (List.mem_of_getElem? h1)] at hpc
        simp at hpc
    · intro i call hc r hpc
      rcases getElem?_append_cases hc with h1 | ⟨_, h1⟩
      · exact (h.someOk i call h1 r hpc).mono (fun _ h => h) (fun call h => ⟨call, by simp [h], rfl⟩)
      · rw [List.mem_singleton.1 (List.mem_of_getElem? h1)] at hpc
        simp at hpc
    · intro c' r hm
      obtain ⟨i, call, h1, h2⟩ := h.sched c' r hm
      exact ⟨i, call, by rw [List.getElem?_append_left (List.getElem?_eq_some_iff.1 h1).1]; exact h1, h2⟩
  | lookup i =>
    simp only [SchedM.step] at hs
    split at hs
    · rename_i rs c hi
      have key : ∀ pc, (∀ r, pc = .decided (some r) → Decided m rs c r) →
          pc ≠ .decided none → (∀ r, pc ≠ .done r) → CallInv (m.setCall i pc) := by
        intro pc h1 h2 h3
        refine ⟨?_, ?_, ?_⟩
        · intro j call hc hpc
          rw [getElem?_setCall] at hc
          split at hc
          · rename_i hij; subst hij
            rw [hi] at hc; simp at hc; subst hc
            rcases hpc with hpc | hpc
            · exact absurd hpc h2
            · exact absurd hpc (h3 _)
          · exact h.noneOk j call hc hpc
        · intro j call hc r hpc
          rw [getElem?_setCall] at hc
          refine Decided.mono (m := m) ?_ (fun _ h => h) calls_setCall
          split at hc
          · rename_i hij; subst hij
            rw [hi] at hc; simp at hc; subst hc
            rcases hpc with hpc | hpc
            · exact h1 r hpc
            · exact absurd hpc (h3 _)
          · exact h.someOk j call hc r hpc
        · intro c' r hm
          obtain ⟨j, call, h4, h5, h6⟩ := h.sched c' r hm
          refine ⟨j, call, ?_, h5, h6⟩
          rw [getElem?_setCall, if_neg]
          · exact h4
          · rintro rfl
            rw [hi] at h4; cases h4; simp at h6
      split at hs
      · rename_i r hr
        cases hs
        refine ⟨ht, key _ ?_ (by simp) (by simp)⟩
        intro r' hr'
        cases hr'
        obtain ⟨last, hl, hp⟩ := Option.bind_eq_some_iff.1 hr
        obtain ⟨h1, h2, h3⟩ := findPinned_spec hp
        refine ⟨h1, .inr ?_⟩
        obtain ⟨pre, c', r', post, h4, h5, h6, h7, _⟩ := (ht.jobs _ _).1 hl
        have hm : SchedEvent.scheduled c' r' ∈ m.trace := by rw [h4]; simp
        obtain ⟨k, call, h8, h9, h10⟩ := h.sched c' r' hm
        exact ⟨c', r', call.runners, hm, h5, h6, by rw [h7, h2],
          ⟨call, List.mem_of_getElem? h8, rfl, (h.someOk k call h8 r' (.inr h10)).1⟩, h3⟩
      · cases hs
        exact ⟨ht, key _ (by simp) (by simp) (by simp)⟩
    · simp at hs
  | pick i =>
    simp only [SchedM.step] at hs
    split at hs
    · rename_i rs c hi
      cases hs
      refine ⟨ht, ?_, ?_, ?_⟩
      · intro j call hc hpc
        rw [getElem?_setCall] at hc
        split at hc
        · rename_i hij; subst hij
          rw [hi] at hc; simp at hc; subst hc
          rcases hpc with hpc | hpc
          · simp at hpc
            exact pickRunner_none.1 hpc
          · simp at hpc
        · exact h.noneOk j call hc hpc
      · intro j call hc r hpc
        rw [getElem?_setCall] at hc
        refine Decided.mono (m := m) ?_ (fun _ h => h) calls_setCall
        split at hc
        · rename_i hij; subst hij
          rw [hi] at hc; simp at hc; subst hc
          rcases hpc with hpc | hpc
          · simp at hpc
            exact ⟨(pickRunner_canRun hpc).1, .inl (pickRunner_canRun hpc).2⟩
          · simp at hpc
        · exact h.someOk j call hc r hpc
      · intro c' r hm
        obtain ⟨j, call, h4, h5, h6⟩ := h.sched c' r hm
        refine ⟨j, call, ?_, h5, h6⟩
        rw [getElem?_setCall, if_neg]
        · exact h4
        · rintro rfl
          rw [hi] at h4; cases h4; simp at h6
    · simp at hs
  | commit i =>
    simp only [SchedM.step] at hs
    split at hs
    · rename_i rs c hi
      cases hs
      refine ⟨ht, ?_, ?_, ?_⟩
      · intro j call hc hpc
        rw [getElem?_setCall] at hc
        split at hc
        · rename_i hij; subst hij
          rw [hi] at hc; simp at hc; subst hc
          have := h.noneOk _ _ hi (.inl rfl)
          exact this
        · exact h.noneOk j call hc hpc
      · intro j call hc r hpc
        rw [getElem?_setCall] at hc
        refine Decided.mono (m := m) ?_ (fun _ h => h) calls_setCall
        split at hc
        · rename_i hij; subst hij
          rw [hi] at hc; simp at hc; subst hc
          simp at hpc
        · exact h.someOk j call hc r hpc
      · intro c' r hm
        obtain ⟨j, call, h4, h5, h6⟩ := h.sched c' r hm
        refine ⟨j, call, ?_, h5, h6⟩
        rw [getElem?_setCall, if_neg]
        · exact h4
        · rintro rfl
          rw [hi] at h4; cases h4; simp at h6
    · rename_i rs c r hi
      cases hs
      refine ⟨ht.commit c r, ?_, ?_, ?_⟩
      · intro j call hc hpc
        simp only at hc
        rw [getElem?_setCall] at hc
        split at hc
        · rename_i hij; subst hij
          rw [hi] at hc; simp at hc; subst hc
          simp at hpc
        · exact h.noneOk j call hc hpc
      · intro j call hc r' hpc
        simp only at hc
        rw [getElem?_setCall] at hc
        refine Decided.mono (m := m) ?_ (fun _ h => by simp [h]) calls_setCall
        split at hc
        · rename_i hij; subst hij
          rw [hi] at hc; simp at hc; subst hc
          simp at hpc; subst hpc
          exact h.someOk _ _ hi _ (.inl rfl)
        · exact h.someOk j call hc r' hpc
      · intro c' r' hm
        simp only [List.mem_append, List.mem_singleton] at hm
        rcases hm with hm | hm
        · obtain ⟨j, call, h4, h5, h6⟩ := h.sched c' r' hm
          refine ⟨j, call, ?_, h5, h6⟩
          show (m.setCall i _).calls[j]? = _
          rw [getElem?_setCall, if_neg]
          · exact h4
          · rintro rfl
            rw [hi] at h4; cases h4; simp at h6
        · cases hm
          refine ⟨i, { runners := rs, cmd := c, pc := .done (some r) }, ?_, rfl, rfl⟩
          show (m.setCall i _).calls[i]? = _
          rw [getElem?_setCall, if_pos rfl, hi]
          rfl
    · simp at hs
  | stepDone id =>
    simp only [SchedM.step, Option.some.injEq] at hs
    subst hs
    refine ⟨ht.stepDone id, h.noneOk, ?_, ?_⟩
    · intro j call hc r hpc
      exact (h.someOk j call hc r hpc).mono (fun _ h => by simp [h]) (fun call h => ⟨call, h, rfl⟩)
    · intro c r hm
      simp at hm
      exact h.sched c r hm
  | jobDone id =>
    simp only [SchedM.step, Option.some.injEq] at hs
    subst hs
    refine ⟨ht.jobDone id, h.noneOk, ?_, ?_⟩
    · intro j call hc r hpc
      exact (h.someOk j call hc r hpc).mono (fun _ h => by simp [h]) (fun call h => ⟨call, h, rfl⟩)
    · intro c r hm
      simp at hm
      exact h.sched c r hm

theorem sched_reach {acts : List SchedAct} {m : SchedM} (h : SchedReach acts m) :
    TableInv m.st m.trace ∧ CallInv m :=
  runs_induct (P := fun _ (m : SchedM) => TableInv m.st m.trace ∧ CallInv m) ⟨TableInv.init, CallInv.init⟩
    (fun _ _ _ _ _ hi hs => hi.2.step hi.1 hs) h

/-- A decided call stays decided the same way. -/
theorem decided_stays {m m' : SchedM} {acts : List SchedAct} {i : Nat} {rs : List RunnerMeta} {c : Command}
    {r : Option RunnerMeta} (hr : runs SchedM.step m acts = some m')
    (h : m.calls[i]? = some ⟨rs, c, .decided r⟩ ∨ m.calls[i]? = some ⟨rs, c, .done r⟩) :
    m'.calls[i]? = some ⟨rs, c, .decided r⟩ ∨ m'.calls[i]? = some ⟨rs, c, .done r⟩ := by
  refine runs_induct (P := fun _ (m : SchedM) => m.calls[i]? = some ⟨rs, c, .decided r⟩ ∨
    m.calls[i]? = some ⟨rs, c, .done r⟩) h ?_ hr
  intro _ a m m' _ ih hs
  cases a with
  | call rs' c' =>
    simp only [SchedM.step, Option.some.injEq] at hs
    subst hs
    have hlt : i < m.calls.length := by
      rcases ih with h | h <;> exact (List.getElem?_eq_some_iff.1 h).1
    simpa [List.getElem?_append_left hlt] using ih
  | lookup j =>
    simp only [SchedM.step] at hs
    split at hs
    · rename_i rs' c' hj
      have hne : j ≠ i := by rintro rfl; rcases ih with h | h <;> rw [h] at hj <;> simp at hj
      split at hs <;> (cases hs; simpa [getElem?_setCall, hne] using ih)
    · simp at hs
  | pick j =>
    simp only [SchedM.step] at hs
    split at hs
    · rename_i rs' c' hj
      have hne : j ≠ i := by rintro rfl; rcases ih with h | h <;> rw [h] at hj <;> simp at hj
      cases hs; simpa [getElem?_setCall, hne] using ih
    · simp at hs
  | commit j =>
    simp only [SchedM.step] at hs
    split at hs
    · rename_i rs' c' hj
      cases hs
      rw [getElem?_setCall]
      by_cases hij : j = i
      · subst hij
        rcases ih with h | h <;> rw [h] at hj <;> simp at hj
        obtain ⟨rfl, rfl, rfl⟩ := hj
        right; simp [h]
      · rw [if_neg hij]; exact ih
    · rename_i rs' c' r' hj
      cases hs
      show (m.setCall j _).calls[i]? = _ ∨ (m.setCall j _).calls[i]? = _
      rw [getElem?_setCall]
      by_cases hij : j = i
      · subst hij
        rcases ih with h | h <;> rw [h] at hj <;> simp at hj
        obtain ⟨rfl, rfl, rfl⟩ := hj
        right; simp [h]
      · rw [if_neg hij]; exact ih
    · simp at hs
  | stepDone id => simp only [SchedM.step, Option.some.injEq] at hs; subst hs; exact ih
  | jobDone id => simp only [SchedM.step, Option.some.injEq] at hs; subst hs; exact ih

/-- Docker steps are only given to runners with docker support. -/
def DockInv (m : SchedM) : Prop := StableRunners m → ∀ (i : Nat) call, m.calls[i]? = some call →
  ∀ r, call.pc = .decided (some r) ∨ call.pc = .done (some r) → WantsDocker call.cmd → r.supportDocker = true

theorem StableRunners.of {m m' : SchedM} (h : StableRunners m')
    (hc : ∀ call ∈ m.calls, ∃ call' ∈ m'.calls, call'.runners = call.runners) : StableRunners m := by
  intro c hcm c' hcm' r hr r' hr' hid
  obtain ⟨d, hd, he⟩ := hc c hcm
  obtain ⟨d', hd', he'⟩ := hc c' hcm'
  exact h d hd d' hd' r (he ▸ hr) r' (he' ▸ hr') hid

theorem DockInv.step {m m' : SchedM} {a : SchedAct} (ht : TableInv m.st m.trace) (hi : CallInv m) (h : DockInv m)
    (hs : m.step a = some m') : DockInv m' := by
  cases a with
  | call rs c =>
    simp only [SchedM.step, Option.some.injEq] at hs
    subst hs
    intro hst i call hc r hpc hw
    rcases getElem?_append_cases hc with h1 | ⟨_, h1⟩
    · exact h (StableRunners.of hst fun call h => ⟨call, by simp [h], rfl⟩) i call h1 r hpc hw
    · rw [List.mem_singleton.1 (List.mem_of_getElem? h1)] at hpc
      simp at hpc
  | lookup i =>
    simp only [SchedM.step] at hs
    split at hs
    · rename_i rs c hcall
      split at hs
      · rename_i r hr
        cases hs
        intro hst j call hc r' hpc hw
        have hst' := StableRunners.of hst calls_setCall
        rw [getElem?_setCall] at hc
        split at hc
        · rename_i hij; subst hij
          rw [hcall] at hc; simp at hc; subst hc
          simp at hpc; subst hpc
          obtain ⟨last, hl, hp⟩ := Option.bind_eq_some_iff.1 hr
          obtain ⟨h1, h2, _⟩ := findPinned_spec hp
          obtain ⟨pre, c', r', post, h4, h5, h6, h7, _⟩ := (ht.jobs _ _).1 hl
          obtain ⟨k, call, h8, rfl, h10⟩ := hi.sched c' r' (by rw [h4]; simp)
          have hd := h hst' k call h8 r' (.inr h10) h5
          rw [← hd]
          exact hst' _ (List.mem_of_getElem? hcall) _ (List.mem_of_getElem? h8) r h1 r'
            (hi.someOk k call h8 r' (.inr h10)).1 (by rw [h2, h7])
        · exact h hst' j call hc r' hpc hw
      · cases hs
        intro hst j call hc r' hpc hw
        rw [getElem?_setCall] at hc
        split at hc
        · rename_i hij; subst hij
          rw [hcall] at hc; simp at hc; subst hc
          simp at hpc
        · exact h (StableRunners.of hst calls_setCall) j call hc r' hpc hw
    · simp at hs
  | pick i =>
    simp only [SchedM.step] at hs
    split at hs
    · rename_i rs c hcall
      cases hs
      intro hst j call hc r' hpc hw
      rw [getElem?_setCall] at hc
      split at hc
      · rename_i hij; subst hij
        rw [hcall] at hc; simp at hc; subst hc
        simp at hpc
        exact (pickRunner_canRun hpc).2.2 hw
      · exact h (StableRunners.of hst calls_setCall) j call hc r' hpc hw
    · simp at hs
  | commit i =>
    simp only [SchedM.step] at hs
    split at hs
    · rename_i rs c hcall
      cases hs
      intro hst j call hc r' hpc hw
      rw [getElem?_setCall] at hc
      split at hc
      · rename_i hij; subst hij
        rw [hcall] at hc; simp at hc; subst hc
        simp at hpc
      · exact h (StableRunners.of hst calls_setCall) j call hc r' hpc hw
    · rename_i rs c r hcall
      cases hs
      intro hst j call hc r' hpc hw
      have hst' : StableRunners m := StableRunners.of (m' := m.setCall i (.done (some r))) hst calls_setCall
      change (m.setCall i _).calls[j]? = _ at hc
      rw [getElem?_setCall] at hc
      split at hc
      · rename_i hij; subst hij
        rw [hcall] at hc; simp at hc; subst hc
        simp at hpc; subst hpc
        exact h hst' _ _ hcall _ (.inl rfl) hw
      · exact h hst' j call hc r' hpc hw
    · simp at hs
  | stepDone id => simp only [SchedM.step, Option.some.injEq] at hs; subst hs; exact h
  | jobDone id => simp only [SchedM.step, Option.some.injEq] at hs; subst hs; exact h

theorem dock_reach {acts : List SchedAct} {m : SchedM} (h : SchedReach acts m) : DockInv m :=
  (runs_induct (P := fun _ (m : SchedM) => (TableInv m.st m.trace ∧ CallInv m) ∧ DockInv m)
    ⟨⟨TableInv.init, CallInv.init⟩, by intro _ i call hc; simp at hc⟩
    (fun _ _ _ _ _ hi hs => ⟨hi.1.2.step hi.1.1 hs, hi.2.step hi.1.1 hi.1.2 hs⟩) h).2

/-- A call keeps its arguments. -/
theorem call_args {m m' : SchedM} {acts : List SchedAct} {i : Nat} {rs : List RunnerMeta} {c : Command} {pc : SchedPc}
    (hr : runs SchedM.step m acts = some m') (h : m.calls[i]? = some ⟨rs, c, pc⟩) :
    ∃ pc', m'.calls[i]? = some ⟨rs, c, pc'⟩ := by
  refine runs_induct (P := fun _ (m : SchedM) => ∃ pc', m.calls[i]? = some ⟨rs, c, pc'⟩) ⟨pc, h⟩ ?_ hr
  rintro _ a m m' _ ⟨pc', ih⟩ hs
  have hset : ∀ j pc, ∃ pc', (m.setCall j pc).calls[i]? = some ⟨rs, c, pc'⟩ := by
    intro j pc
    rw [getElem?_setCall]
    split
    · exact ⟨pc, by simp [ih]⟩
    · exact ⟨pc', ih⟩
  cases a with
  | call rs' c' =>
    simp only [SchedM.step, Option.some.injEq] at hs
    subst hs
    exact ⟨pc', by simpa [List.getElem?_append_left (List.getElem?_eq_some_iff.1 ih).1] using ih⟩
  | lookup j =>
    simp only [SchedM.step] at hs
    split at hs
    · split at hs <;> (cases hs; exact hset _ _)
    · simp at hs
  | pick j =>
    simp only [SchedM.step] at hs
    split at hs
    · cases hs; exact hset _ _
    · simp at hs
  | commit j =>
    simp only [SchedM.step] at hs
    split at hs
    · cases hs; exact hset _ _
    · cases hs; exact hset _ _
    · simp at hs
  | stepDone id => simp only [SchedM.step, Option.some.injEq] at hs; subst hs; exact ⟨pc', ih⟩
  | jobDone id => simp only [SchedM.step, Option.some.injEq] at hs; subst hs; exact ⟨pc', ih⟩

/-- Calls made one after the other: the moves of one call in a row do what `SchedState.schedule` says. -/
theorem schedule_is_history (m : SchedM) (rs : List RunnerMeta) (c : Command) :
    ∃ acts m', runs SchedM.step m acts = some m' ∧ m'.st = (m.st.schedule rs c).1 ∧
      m'.calls = m.calls ++ [⟨rs, c, .done (m.st.schedule rs c).2⟩] ∧
      m'.trace = m.trace ++ (match (m.st.schedule rs c).2 with
        | some r => [.scheduled c r]
        | none => []) := by
  have hget : ∀ pc, (m.calls ++ [SchedCall.mk rs c pc])[m.calls.length]? = some ⟨rs, c, pc⟩ := by
    intro pc; simp
  have hmod : ∀ pc pc', (m.calls ++ [SchedCall.mk rs c pc]).modify m.calls.length (fun x => { x with pc := pc' }) =
      m.calls ++ [⟨rs, c, pc'⟩] := by
    intro pc pc'
    apply List.ext_getElem?
    intro j
    rw [List.getElem?_modify]
    rcases Nat.lt_trichotomy j m.calls.length with hj | rfl | hj
    · rw [List.getElem?_append_left hj, List.getElem?_append_left hj]; simp [Nat.ne_of_gt hj]
    · simp
    · rw [List.getElem?_eq_none (by simp; omega), List.getElem?_eq_none (by simp; omega)]; simp
  unfold SchedState.schedule
  cases hp : (m.st.jobRunners.get? c.id.jobId).bind (findPinned rs c) with
  | some r =>
    refine ⟨[.call rs c, .lookup m.calls.length, .commit m.calls.length],
      { st := m.st.commit c r, calls := m.calls ++ [⟨rs, c, .done (some r)⟩], trace := m.trace ++ [.scheduled c r] },
      ?_, rfl, rfl, rfl⟩
    simp only [runs, SchedM.step, hget, hp, SchedM.setCall, hmod]
  | none =>
    cases hq : pickRunner m.st.runsCount rs c with
    | none =>
      refine ⟨[.call rs c, .lookup m.calls.length, .pick m.calls.length, .commit m.calls.length],
        { m with calls := m.calls ++ [⟨rs, c, .done none⟩] }, ?_, rfl, rfl, by simp⟩
      simp only [runs, SchedM.step, hget, hp, SchedM.setCall, hmod, hq]
    | some r =>
      refine ⟨[.call rs c, .lookup m.calls.length, .pick m.calls.length, .commit m.calls.length],
        { st := m.st.commit c r, calls := m.calls ++ [⟨rs, c, .done (some r)⟩],
          trace := m.trace ++ [.scheduled c r] }, ?_, rfl, rfl, rfl⟩
      simp only [runs, SchedM.step, hget, hp, SchedM.setCall, hmod, hq]

theorem picking_step {m m' : SchedM} {a : SchedAct} {i : Nat} {rs : List RunnerMeta} {c : Command}
    (hs : m.step a = some m') (h : m.calls[i]? = some ⟨rs, c, .picking⟩) :
    a = .pick i ∨ m'.calls[i]? = some ⟨rs, c, .picking⟩ := by
  cases a with
  | call rs' c' =>
    simp only [SchedM.step, Option.some.injEq] at hs
    subst hs
    right; simpa [List.getElem?_append_left (List.getElem?_eq_some_iff.1 h).1] using h
  | lookup j =>
    right
    simp only [SchedM.step] at hs
    split at hs
    · rename_i rs' c' hj
      have hne : j ≠ i := by rintro rfl; rw [h] at hj; simp at hj
      split at hs <;> (cases hs; rw [getElem?_setCall, if_neg hne]; exact h)
    · simp at hs
  | pick j =>
    simp only [SchedM.step] at hs
    split at hs
    · by_cases hne : j = i
      · left; rw [hne]
      · right; cases hs; rw [getElem?_setCall, if_neg hne]; exact h
    · simp at hs
  | commit j =>
    right
    simp only [SchedM.step] at hs
    split at hs
    · rename_i rs' c' hj
      have hne : j ≠ i := by rintro rfl; rw [h] at hj; simp at hj
      cases hs; rw [getElem?_setCall, if_neg hne]; exact h
    · rename_i rs' c' r' hj
      have hne : j ≠ i := by rintro rfl; rw [h] at hj; simp at hj
      cases hs
      show (m.setCall j _).calls[i]? = _
      rw [getElem?_setCall, if_neg hne]; exact h
    · simp at hs
  | stepDone id => right; simp only [SchedM.step, Option.some.injEq] at hs; subst hs; exact h
  | jobDone id => right; simp only [SchedM.step, Option.some.injEq] at hs; subst hs; exact h

theorem picking_to_done {m m' : SchedM} {later : List SchedAct} {i : Nat} {rs : List RunnerMeta} {c : Command}
    {res : Option RunnerMeta} (hl : runs SchedM.step m later = some m')
    (h : m.calls[i]? = some ⟨rs, c, .picking⟩) (hd : m'.calls[i]? = some ⟨rs, c, .done res⟩) :
    ∃ mid m2 rest, later = mid ++ .pick i :: rest ∧ runs SchedM.step m mid = some m2 ∧
      res = pickRunner m2.st.runsCount rs c := by
  induction later generalizing m with
  | nil =>
    simp only [runs, Option.some.injEq] at hl
    subst hl
    rw [h] at hd; simp at hd
  | cons a later ih =>
    simp only [runs] at hl
    split at hl
    · rename_i m1 hs
      rcases picking_step hs h with rfl | h1
      · refine ⟨[], m, later, rfl, rfl, ?_⟩
        simp only [SchedM.step, h, Option.some.injEq] at hs
        subst hs
        have := decided_stays (i := i) (rs := rs) (c := c) (r := pickRunner m.st.runsCount rs c) hl
          (.inl (by rw [getElem?_setCall, if_pos rfl, h]; rfl))
        rcases this with h2 | h2 <;> rw [hd] at h2 <;> simp at h2
        exact h2
      · obtain ⟨mid, m2, rest, h2, h3, h4⟩ := ih hl h1
        exact ⟨a :: mid, m2, rest, by rw [h2]; rfl, by simp only [runs, hs]; exact h3, h4⟩
    · simp at hl

end AstroRun
