import Verif.Lemmas.WorkflowStuck
import Verif.Props.Parser
import Verif.Spec.WorkflowEx
import Verif.Props.Config

/-! # C02, C06: at most one run per job, termination -/

namespace AstroRun
open Spec

/-- Messages come from different tasks. -/
def SendersDistinct (m : WfM) : Prop := ((m.chan ++ m.received).map WfMsg.sender).Nodup

theorem SendersDistinct.step {wf : Workflow} {m m' : WfM} {a : WfAct} (hi : WfInv wf m) (h : SendersDistinct m)
    (hs : m.step a = some m') : SendersDistinct m' := by
  cases a <;> simp only [WfM.step] at hs
  case check b now =>
    split at hs
    · split at hs <;> (cases hs; exact h)
    · simp at hs
  case spawn =>
    split at hs
    · cases hs; exact h
    · cases hs
      unfold WfM.setupJob
      split <;> exact h
    · simp at hs
  case recv now =>
    split at hs
    · rename_i msg chan hpc hc
      cases hs
      have hp : SendersDistinct ({ m with chan := chan }.book msg) := by
        unfold SendersDistinct at h ⊢
        rw [hc] at h
        have : ({ m with chan := chan }.book msg).chan ++ ({ m with chan := chan }.book msg).received
            = chan ++ (m.received ++ [msg]) := rfl
        rw [this]
        refine (List.Perm.nodup_iff ?_).2 h
        apply List.Perm.map
        rw [← List.append_assoc]
        exact List.perm_append_singleton _ _
      unfold WfM.handle
      simp only
      split
      · exact hp
      · rw [rescan_eq]; exact hp
    · simp at hs
  case announce => split at hs <;> simp at hs; subst hs; exact h
  case complete => split at hs <;> simp at hs; subst hs; exact h
  case begin i env => split at hs <;> simp at hs; subst hs; exact h
  case emit i =>
    split at hs
    · simp at hs; subst hs; exact h
    · split at hs <;> (simp at hs; subst hs; exact h)
    · simp at hs
  case send i =>
    split at hs
    · rename_i k job r ht
      split at hs
      · simp at hs; subst hs; exact h
      · split at hs
        · simp at hs
          subst hs
          unfold SendersDistinct at h ⊢
          have hne : i ∉ (m.chan ++ m.received).map WfMsg.sender := by
            intro hmem
            obtain ⟨msg, hm, hsend⟩ := List.mem_map.1 hmem
            have : MsgOk m msg := by
              rcases List.mem_append.1 hm with hm | hm
              · exact hi.chan msg hm
              · exact hi.recd msg hm
            obtain ⟨t, h1, _, h3, _⟩ := this
            rw [hsend, ht] at h1
            cases h1; simp at h3
          refine (List.Perm.nodup_iff (List.Perm.map _ (l₂ := WfMsg.mk i k r :: (m.chan ++ m.received)) ?_)).2 ?_
          · show (m.chan ++ [WfMsg.mk i k r] ++ m.received).Perm _
            rw [List.append_assoc]
            exact List.perm_middle
          · rw [List.map_cons, List.nodup_cons]
            exact ⟨hne, h⟩
        · simp at hs
    · simp at hs

theorem senders_reach {wf : Workflow} {acts : List WfAct} {m : WfM} (h : WfReach wf acts m) : SendersDistinct m := by
  have : WfInv wf m ∧ SendersDistinct m :=
    runs_induct (P := fun _ m => WfInv wf m ∧ SendersDistinct m)
      ⟨WfInv.initial wf, by simp [SendersDistinct, WfM.initial]⟩
      (fun _ _ _ _ _ hi hs => ⟨hi.1.step hs, hi.2.step hi.1 hs⟩) h
  exact this.2

/-- What a started job needs, directly or not, has been delivered. -/
theorem ancestors_received {wf : Workflow} (hu : UniqueJobs wf) {m : WfM} (hi : WfInv wf m) {x d : Id}
    (hd : Relation.TransGen (DependsOn wf) x d) : ∀ i, IsRunOf m i x → ∃ msg ∈ m.received, msg.key = d := by
  have one : ∀ x d, DependsOn wf x d → ∀ i, IsRunOf m i x → ∃ msg ∈ m.received, msg.key = d := by
    rintro x d ⟨j, hj, hdj⟩ i ⟨t, ht, rfl⟩
    have := job_unique hu hj (hi.job i t ht)
    subst this
    obtain ⟨msg, hm, hk, _⟩ := hi.order i t ht d hdj
    exact ⟨msg, hm, hk⟩
  induction hd using Relation.TransGen.head_induction_on with
  | single h => exact one _ _ h
  | head h _ ih =>
    intro i hr
    obtain ⟨msg, hm, rfl⟩ := one _ _ h i hr
    obtain ⟨_, h1, _⟩ := received_run hi hm
    exact ih _ h1

/-- One run per key. -/
def RunsDistinct (m : WfM) : Prop := (m.view.runs.map Prod.fst).Nodup

theorem runsDistinct_iff {m : WfM} : RunsDistinct m ↔ ∀ i j k, IsRunOf m i k → IsRunOf m j k → i = j := by
  have he : m.view.runs.map Prod.fst = m.tasks.map WfTask.key := by
    simp [WfM.view]
  unfold RunsDistinct
  rw [he]
  constructor
  · rintro hn i j k ⟨t, ht, hk⟩ ⟨u, hu, hk'⟩
    have h1 : (m.tasks.map WfTask.key)[i]? = some k := by simp [ht, hk]
    have h2 : (m.tasks.map WfTask.key)[j]? = some k := by simp [hu, hk']
    have hi : i < (m.tasks.map WfTask.key).length := (List.getElem?_eq_some_iff.1 h1).1
    exact (hn.getElem_inj_iff (hi := hi) (hj := (List.getElem?_eq_some_iff.1 h2).1)).1
      (by rw [List.getElem_eq_iff, h1]; exact ((List.getElem_eq_iff _).2 h2).symm ▸ rfl)
  · intro h
    rw [List.nodup_iff_getElem?_ne_getElem?]
    intro i j hij hj heq
    obtain ⟨t, ht⟩ : ∃ t, m.tasks[j]? = some t := ⟨_, List.getElem?_eq_getElem (by simpa using hj)⟩
    obtain ⟨u, hu⟩ : ∃ t, m.tasks[i]? = some t :=
      ⟨_, List.getElem?_eq_getElem (Nat.lt_trans hij (by simpa using hj))⟩
    simp only [List.getElem?_map, ht, hu, Option.map_some, Option.some.injEq] at heq
    have := h i j t.key ⟨u, hu, heq⟩ ⟨t, ht, rfl⟩
    omega

theorem RunsDistinct.step {wf : Workflow} (hu : UniqueJobs wf) (hc : NoParallelDependents wf) {m m' : WfM} {a : WfAct}
    (hi : WfInv wf m) (hb : PcBook wf m.view) (hsd : SendersDistinct m) (h : RunsDistinct m)
    (hs : m.step a = some m') : RunsDistinct m' := by
  have hb' := hb.step hi hs
  have hsame : m'.view.runs = m.view.runs → RunsDistinct m' := by
    intro he; unfold RunsDistinct; rw [he]; exact h
  have hset : ∀ i pc, (m.setTask i pc).view.runs = m.view.runs := fun i pc => by rw [view_setTask]
  cases a <;> simp only [WfM.step] at hs
  case check b now =>
    split at hs
    · split at hs <;> (cases hs; exact h)
    · simp at hs
  case spawn =>
    split at hs
    · cases hs; exact h
    · rename_i e rest hpc
      cases hs
      obtain ⟨pre, h1, h2, _⟩ := hb'
      unfold RunsDistinct
      rw [h2]
      have : (wf.jobs.map Prod.fst).Nodup := hu
      rw [h1, List.map_append] at this
      exact (List.filter_sublist.map Prod.fst).nodup (List.Nodup.of_append_left this)
    · simp at hs
  case recv now =>
    split at hs
    · rename_i msg chan hpc hchan
      cases hs
      have hbk : ({ m with chan := chan }.book msg).view.runs = m.view.runs := rfl
      unfold WfM.handle
      simp only
      split
      · exact h
      · rw [rescan_eq]
        have hv : m.view.pc = .loop := hpc
        unfold PcBook at hb; simp only [hv] at hb
        obtain ⟨⟨_, hw, _⟩, _⟩ := hb
        have hw' : m.waiting = wf.jobs.filter fun e => !isRoot e && !(m.received.any fun msg => msg.key == e.1) := hw
        have hready : ∀ e ∈ readyJobs ({ m with chan := chan }.book msg), e ∈ wf.jobs ∧ isRoot e = false ∧
            (∀ x ∈ m.received, x.key ≠ e.1) ∧ e.1 ≠ msg.key ∧
            ∀ d ∈ e.2.dependsOn, d = msg.key ∨ ∃ x ∈ m.received, x.key = d := by
          intro e he
          obtain ⟨h1, h2⟩ := List.mem_filter.1 he
          obtain ⟨h3, h4⟩ := List.mem_filter.1 (show e ∈ m.waiting.filter _ from h1)
          rw [hw'] at h3
          obtain ⟨h5, h6⟩ := List.mem_filter.1 h3
          simp only [Bool.and_eq_true, Bool.not_eq_true', List.any_eq_false, beq_iff_eq] at h2 h6
          refine ⟨h5, h6.1, h6.2, by simpa using h4, fun d hd => ?_⟩
          have := (allFinished_iff _ _).1 h2.2 d hd
          have := (AMap.mem_keys_insert _ _ _ _).1 this
          exact this.imp id fun hk => (hi.keys d).1 hk
        have hmsg : IsRunOf m msg.sender msg.key := by
          obtain ⟨t, h1, h2, _⟩ := hi.chan msg (by rw [hchan]; simp)
          exact ⟨t, h1, h2⟩
        have hnew : ∀ x ∈ m.received, x.key ≠ msg.key := by
          intro x hx heq
          obtain ⟨_, hr, _⟩ := received_run hi hx
          rw [heq] at hr
          have hse := runsDistinct_iff.1 h _ _ _ hr hmsg
          unfold SendersDistinct at hsd
          rw [hchan] at hsd
          simp only [List.cons_append, List.map_cons, List.nodup_cons] at hsd
          exact hsd.1 (hse ▸ List.mem_map_of_mem (List.mem_append_right _ hx))
        have hfresh : ∀ e ∈ readyJobs ({ m with chan := chan }.book msg), ∀ i, ¬ IsRunOf m i e.1 := by
          intro e he i hrun
          obtain ⟨hj, hnr, hnrec, hne, _⟩ := hready e he
          obtain ⟨t, h1, h2, _⟩ := hi.chan msg (by rw [hchan]; simp)
          have hmj := hi.job _ _ h1
          rw [h2] at hmj
          have hdep : e.2.dependsOn ≠ [] := by
            intro hnil; simp [isRoot, hnil] at hnr
          rcases hc e.1 e.2 hj hdep msg.key t.job hmj hne.symm with hr | hr
          · obtain ⟨x, hx, hk⟩ := ancestors_received hu hi hr i hrun
            exact hnew x hx hk
          · obtain ⟨x, hx, hk⟩ := ancestors_received hu hi hr _ hmsg
            exact hnrec x hx hk
        unfold RunsDistinct
        have hview : ({ ({ m with chan := chan }.book msg) with
            tasks := ({ m with chan := chan }.book msg).tasks ++
              (readyJobs ({ m with chan := chan }.book msg)).map fun e => { key := e.1, job := e.2 } } : WfM).view.runs
            = m.view.runs ++ readyJobs ({ m with chan := chan }.book msg) := by
          show (m.tasks ++ _).map _ = _
          rw [List.map_append, List.map_map]
          congr 1
          exact (List.map_congr_left (fun x _ => rfl)).trans (List.map_id _)
        rw [hview, List.map_append, List.nodup_append]
        refine ⟨h, ?_, ?_⟩
        · have hsub : (readyJobs ({ m with chan := chan }.book msg)).Sublist m.waiting :=
            List.filter_sublist.trans List.filter_sublist
          have hsub' := hsub.trans (hw' ▸ List.filter_sublist)
          exact (hsub'.map Prod.fst).nodup hu
        · intro k hk k' hk' heq
          subst heq
          obtain ⟨p, hp, rfl⟩ := List.mem_map.1 hk
          obtain ⟨e, he, hek⟩ := List.mem_map.1 hk'
          obtain ⟨t, ht, rfl⟩ := List.mem_map.1 hp
          obtain ⟨i, hit⟩ := List.mem_iff_getElem?.1 ht
          exact hfresh e he i ⟨t, hit, hek.symm⟩
    · simp at hs
  case announce => split at hs <;> simp at hs; subst hs; exact h
  case complete => split at hs <;> simp at hs; subst hs; exact h
  case begin i env => split at hs <;> simp at hs; subst hs; exact hsame (hset _ _)
  case emit i =>
    split at hs
    · simp at hs; subst hs; exact hsame (hset _ _)
    · split at hs <;> (simp at hs; subst hs; exact hsame (hset _ _))
    · simp at hs
  case send i =>
    split at hs
    · split at hs
      · simp at hs; subst hs; exact hsame (hset _ _)
      · split at hs
        · simp at hs; subst hs; exact hsame (hset _ _)
        · simp at hs
    · simp at hs

/-- **C02** (partial) At most one run per job if every job with dependencies is an ancestor or a descendant of
every other job.  Missing for the full claim: all other workflows, see `C02_refuted` and
`C02_exactly_these`. -/
theorem C02_single_run_partial (wf : Workflow) (hu : UniqueJobs wf) (hc : NoParallelDependents wf)
    (acts : List WfAct) (m : WfM) (h : WfReach wf acts m) (i j : Nat) (k : Id)
    (hi : IsRunOf m i k) (hj : IsRunOf m j k) : i = j := by
  have : WfInv wf m ∧ PcBook wf m.view ∧ SendersDistinct m ∧ RunsDistinct m := by
    refine runs_induct (P := fun _ m => WfInv wf m ∧ PcBook wf m.view ∧ SendersDistinct m ∧ RunsDistinct m)
      ⟨WfInv.initial wf, (pcBook_reach (acts := []) rfl).2, ?_, ?_⟩
      (fun _ _ _ _ _ hi hs => ⟨hi.1.step hs, hi.2.1.step hi.1 hs, hi.2.2.1.step hi.1 hs,
        hi.2.2.2.step hu hc hi.1 hi.2.1 hi.2.2.1 hs⟩) h
    · simp [SendersDistinct, WfM.initial]
    · simp [RunsDistinct, WfM.view, WfM.initial]
  exact runsDistinct_iff.1 this.2.2.2 i j k hi hj

/-- **C02** (partial) Jobs without dependencies are started at most once in every workflow. -/
theorem C02_roots_single_run_partial (wf : Workflow) (hu : UniqueJobs wf)
    (acts : List WfAct) (m : WfM) (h : WfReach wf acts m) (i j : Nat) (k : Id) (job : Job)
    (hk : (k, job) ∈ wf.jobs) (hroot : job.dependsOn = [])
    (hi : IsRunOf m i k) (hj : IsRunOf m j k) : i = j := by
  have inv := wfInv_reach h
  have hb := (pcBook_reach h).2
  -- every run is a root run of the initial loop, followed by runs of other jobs
  have hruns : ∃ pre extra, pre.Sublist wf.jobs ∧ m.view.runs = pre ++ extra ∧ ∀ e ∈ extra, isRoot e = false := by
    unfold PcBook at hb
    rcases hpc : m.view.pc with _ | rest | _ | t | r | r <;> simp only [hpc] at hb
    · exact ⟨[], [], List.nil_sublist _, by rw [hb]; rfl, by simp⟩
    · obtain ⟨pre, h1, h2, _⟩ := hb
      exact ⟨pre.filter isRoot, [], List.filter_sublist.trans (h1 ▸ List.sublist_append_left _ _),
        by simp [h2], by simp⟩
    · obtain ⟨extra, h1, h2⟩ := hb.1.roots
      exact ⟨_, extra, List.filter_sublist, h1, h2⟩
    · obtain ⟨extra, h1, h2⟩ := hb.1.roots
      exact ⟨_, extra, List.filter_sublist, h1, h2⟩
    · obtain ⟨extra, h1, h2⟩ := hb.1.roots
      exact ⟨_, extra, List.filter_sublist, h1, h2⟩
    · rcases hb with hb | hb
      · exact ⟨[], [], List.nil_sublist _, by simp [hb.2.2.1], by simp⟩
      · obtain ⟨extra, h1, h2⟩ := hb.1.roots
        exact ⟨_, extra, List.filter_sublist, h1, h2⟩
  obtain ⟨pre, extra, hsub, hr, hex⟩ := hruns
  have hpos : ∀ i, IsRunOf m i k → pre[i]? = some (k, job) := by
    rintro i ⟨t, ht, rfl⟩
    have hjob : t.job = job := job_unique hu (inv.job i t ht) hk
    have : m.view.runs[i]? = some (t.key, job) := by simp [WfM.view, ht, hjob]
    rw [hr] at this
    by_cases hlt : i < pre.length
    · rwa [List.getElem?_append_left hlt] at this
    · rw [List.getElem?_append_right (Nat.le_of_not_lt hlt)] at this
      have := hex _ (List.mem_of_getElem? this)
      simp [isRoot, hroot] at this
  have hnd : (pre.map Prod.fst).Nodup := (hsub.map Prod.fst).nodup hu
  have h1 : (pre.map Prod.fst)[i]? = some k := by simp [hpos i hi]
  have h2 : (pre.map Prod.fst)[j]? = some k := by simp [hpos j hj]
  obtain ⟨l1, e1⟩ := List.getElem?_eq_some_iff.1 h1
  obtain ⟨l2, e2⟩ := List.getElem?_eq_some_iff.1 h2
  exact (hnd.getElem_inj_iff (hi := l1) (hj := l2)).1 (e1.trans e2.symm)

/-- **C06** No schedule goes on forever, for any workflow whatever (job runs being finite). -/
theorem C06_no_infinite_schedule (wf : Workflow) :
    ¬ ∃ f : Nat → WfM, f 0 = WfM.initial wf ∧ ∀ n, ∃ a, (f n).step a = some (f (n + 1)) := by
  rintro ⟨f, _, hf⟩
  have key : ∀ m : WfM, ∀ n, f n ≠ m := by
    intro m
    induction m using step_wf.induction with
    | _ m ih =>
      rintro n rfl
      exact ih (f (n + 1)) (hf n) (n + 1) rfl
  exact key _ 0 rfl

/-- **C06** (partial) If the dependencies form no cycle: a schedule that cannot be continued has returned, and
from every point the run can be brought to its return.  With `C06_no_infinite_schedule`: every schedule
reaches the return if it is continued as long as possible.  Missing for the full claim: accepted configurations
with cycles, see `C06_refuted`. -/
theorem C06_acyclic_returns_partial (wf : Workflow) (hu : UniqueJobs wf) (ho : OwnIds wf) (hd : DepsDefined wf)
    (ha : Acyclic wf) (hne : wf.jobs ≠ []) (acts : List WfAct) (m : WfM) (h : WfReach wf acts m)
    (hk : HooksKeepJob wf acts) :
    ((∀ a, m.step a = none) → ∃ r, m.pc = .returned r) ∧
    ∃ more m' r, WfReach wf (acts ++ more) m' ∧ HooksKeepJob wf (acts ++ more) ∧ m'.pc = .returned r := by
  have key : ∀ acts m, WfReach wf acts m → HooksKeepJob wf acts → StuckUpTo (fun _ => False) m →
      ∃ r, m.pc = .returned r := by
    intro acts m h hk hst
    rcases stuck_pc hst with hpc | hr
    · exfalso
      have hall := stuck_received hu ho hd ha h hk hpc hst
      have hb := (pcBook_reach h).2
      have inv := wfInv_reach h
      have hv : m.view.pc = .loop := hpc
      unfold PcBook at hb; simp only [hv] at hb
      have hsub : wf.jobs.map Prod.fst ⊆ AMap.keys m.results := by
        intro k hk
        obtain ⟨⟨k', j⟩, hj, rfl⟩ := List.mem_map.1 hk
        exact hall k' j hj (by simp)
      have hsub' : AMap.keys m.results ⊆ wf.jobs.map Prod.fst := by
        intro k hk
        obtain ⟨msg, hm, rfl⟩ := (inv.keys k).1 hk
        obtain ⟨job, _, hmem, _⟩ := received_run inv hm
        exact List.mem_map.2 ⟨_, hmem, rfl⟩
      have hl1 := (List.subperm_of_subset hu hsub).length_le
      have hl2 := (List.subperm_of_subset inv.nodup hsub').length_le
      simp only [AMap.keys, List.length_map] at hl1 hl2
      rcases hb.2.1 with hlen | hrec
      · exact hlen (Nat.le_antisymm hl2 hl1)
      · have hr0 : m.received = [] := hrec
        cases hj : wf.jobs with
        | nil => exact hne hj
        | cons e es =>
          have : e.1 ∈ AMap.keys m.results := hsub (by simp [hj])
          obtain ⟨msg, hm, _⟩ := (inv.keys e.1).1 this
          rw [hr0] at hm; simp at hm
    · exact hr
  refine ⟨fun hno => key acts m h hk (fun a m' hs => by rw [hno a] at hs; simp at hs), ?_⟩
  obtain ⟨more, m', h1, h2, _, h3⟩ := run_until_stuck ho (fun _ => False) (fun _ => True)
    (fun _ _ _ _ _ _ _ _ => trivial) m acts h hk trivial
  obtain ⟨r, hr⟩ := key _ _ h1 h2 h3
  exact ⟨more, m', r, h1, h2, hr⟩

/-- **C06** The conditions of `C06_acyclic_returns_partial` are met by every accepted configuration without
dependency cycles, whatever actions and plugins expand its steps. -/
theorem C06_parsed_workflows (env : ParseEnv) (id : Id) (w : UserWorkflow) (wf : Workflow)
    (hu : UniqueKeys w) (h : buildWorkflow env id w = .ok wf) (ha : ¬ HasCycle w) :
    UniqueJobs wf ∧ OwnIds wf ∧ DepsDefined wf ∧ Acyclic wf ∧ wf.jobs ≠ [] := by
  unfold buildWorkflow at h
  split at h
  · simp at h
  · rename_i hv
    have hwf := ((C34_validator_decision w).1).1 hv
    obtain ⟨_, _, _, hnd, hto, hof⟩ := parseWorkflow_inv hu h
    obtain ⟨_, _, _, hids, _⟩ := C36_parsed_identifiers env id w wf hu h
    have hdeps : ∀ k d, DependsOn wf k d → WaitsFor w k d := by
      rintro k d ⟨j, hj, hd⟩
      obtain ⟨uj, hm, hp⟩ := hof k j hj
      obtain ⟨_, _, _, _, _, _, hdep, _⟩ := parseJob_inv hp
      exact ⟨uj, hm, by rw [hdep] at hd; exact hd⟩
    refine ⟨hnd, ⟨?_, ?_⟩, ?_, ?_, ?_⟩
    · intro k j k' j' hj hj' he
      rw [(hids k j hj).1, (hids k' j' hj').1] at he
      simpa using he
    · intro k j hj s hs
      obtain ⟨i, hi, rfl⟩ := List.getElem_of_mem hs
      rw [(hids k j hj).2 i hi, (hids k j hj).1]
      rfl
    · intro k j hj d hd
      obtain ⟨uj, hm, hdw⟩ := hdeps k d ⟨j, hj, hd⟩
      obtain ⟨uj', hm'⟩ := hwf.defined k uj hm d hdw
      obtain ⟨j', hj', _⟩ := hto d uj' hm'
      exact ⟨j', hj'⟩
    · intro a hc
      exact ha ⟨a, Relation.TransGen.lift (fun z => z) (fun x y hxy => hdeps x y hxy) _ _ hc⟩
    · intro hnil
      cases hj : w.jobs with
      | nil => exact hwf.someJob hj
      | cons e es =>
        obtain ⟨j, hj', _⟩ := hto e.1 e.2 (by simp [hj])
        rw [hnil] at hj'; simp at hj'

/-- **C02** is decided by the shape of the dependencies: for a workflow without cycles that is not skipped, no
schedule starts a job twice if and only if every job with dependencies is an ancestor or a descendant of every
other job. -/
theorem C02_exactly_these (wf : Workflow) (hu : UniqueJobs wf) (ho : OwnIds wf) (hd : DepsDefined wf)
    (ha : Acyclic wf) :
    (∀ acts m, WfReach wf acts m → ∀ i j k, IsRunOf m i k → IsRunOf m j k → i = j) ↔ NoParallelDependents wf := by
  constructor
  swap
  · intro hc acts m h i j k hi hj
    exact C02_single_run_partial wf hu hc acts m h i j k hi hj
  intro hall
  apply Classical.byContradiction
  intro hn
  unfold NoParallelDependents at hn
  simp only [not_forall, not_or] at hn
  obtain ⟨k, j, hj, hdep, x, jx, hjx, hxk, hkx, hxk'⟩ := hn
  -- start the workflow
  have h0 : WfReach wf [.check true 0] { WfM.initial wf with
      pc := .setup wf.jobs, startedAt := 0, state := .inProgress
      trace := [(none, .runWorkflow wf.id), (none, .workflowState wf.id .inProgress)] } := by
    have hskip : shouldSkip wf.on true = false := by cases wf.on <;> rfl
    simp [WfReach, runs, WfM.step, WfM.initial, hskip]
  have hk0 : HooksKeepJob wf [.check true 0] := by intro i env he; simp at he
  have notReturned : ∀ (acts : List WfAct) (m : WfM) (B : Id → Prop), WfReach wf (.check true 0 :: acts) m →
      Idle B m → B k → ∀ r, m.pc ≠ .returned r := by
    intro acts m B h hid hB r hr
    have hns := ((C08_skipped_workflow wf true 0 acts m h).2 (.inr rfl) r hr).1
    obtain ⟨_, hperm⟩ := returned_keys h hr hns
    have : k ∈ AMap.keys m.results := hperm.mem_iff.2 (List.mem_map.2 ⟨_, hj, rfl⟩)
    exact hid.not_received (wfInv_reach h) hB this
  -- phase 1: everything but `k` and `x`
  obtain ⟨acts1, m1, hr1, hkp1, hid1, hst1⟩ := run_until_stuck ho (fun y => y = k ∨ y = x)
    (Idle fun y => y = k ∨ y = x) (fun _ _ _ _ _ hp hav hs => hp.step hav hs) _ _ h0 hk0
    (by intro i t ht; simp [WfM.initial] at ht)
  have hpc1 : m1.pc = .loop := by
    rcases stuck_pc hst1 with h | ⟨r, h⟩
    · exact h
    · exact absurd h (notReturned acts1 m1 _ hr1 hid1 (.inl rfl) r)
  have inv1 := wfInv_reach hr1
  have hrec1 := stuck_received hu ho hd ha hr1 hkp1 hpc1 hst1
  have hdk : ∀ d ∈ j.dependsOn, d ∈ AMap.keys m1.results := by
    intro d hdj
    have hkd : DependsOn wf k d := ⟨j, hj, hdj⟩
    obtain ⟨jd, hjd⟩ := hd k j hj d hdj
    refine hrec1 d jd hjd ?_
    rintro b (rfl | rfl) hreach
    · exact ha _ (Relation.TransGen.head' hkd hreach)
    · exact hkx (Relation.TransGen.head' hkd hreach)
  obtain ⟨i1, hi1⟩ := (C05_dependents_run_anyway wf hu _ m1 hr1).1 hpc1 k j hj
    (fun d hdj => (inv1.keys d).1 (hdk d hdj))
  -- phase 2: everything but `k`
  let P : WfM → Prop := fun m => Idle (fun y => y = k) m ∧ (∀ d ∈ j.dependsOn, d ∈ AMap.keys m.results) ∧
    (∃ i, IsRunOf m i k) ∧ (m.pc = .loop) ∧ (x ∈ AMap.keys m.results → ∃ i i', i ≠ i' ∧ IsRunOf m i k ∧ IsRunOf m i' k)
  have runMono : ∀ (m m' : WfM) (a : WfAct), m.step a = some m' → ∀ i y, IsRunOf m i y → IsRunOf m' i y := by
    rintro m m' a hs i y ⟨t, ht, rfl⟩
    obtain ⟨t', h1, h2, _⟩ := (step_mono hs).1 i t ht
    exact ⟨t', h1, h2⟩
  have hP : ∀ acts m a m', WfReach wf acts m → P m → Avoids (fun y => y = k) m a → m.step a = some m' → P m' := by
    rintro acts m a m' hr ⟨p1, p2, ⟨i, p3⟩, p4, p5⟩ hav hs
    have hid' := p1.step hav hs
    have inv := wfInv_reach hr
    have inv' := inv.step hs
    have hk' : k ∉ AMap.keys m'.results := hid'.not_received inv' rfl
    have hk : k ∉ AMap.keys m.results := p1.not_received inv rfl
    have mono := step_mono hs
    have hpcx : m'.pc = .loop ∧ (x ∈ AMap.keys m'.results → x ∈ AMap.keys m.results ∨
        ∃ i', i ≠ i' ∧ IsRunOf m' i' k) := by
      cases a <;> simp only [WfM.step] at hs
      case recv now =>
        split at hs
        · rename_i msg chan hpc hchan
          cases hs
          have hb := (pcBook_reach hr).2
          have hv : m.view.pc = .loop := p4
          unfold PcBook at hb; simp only [hv] at hb
          unfold WfM.handle at hk' inv' ⊢
          simp only at hk' inv' ⊢
          split
          · rename_i hlen
            exfalso
            rw [if_pos hlen] at hk' inv'
            -- all results are there, including that of `k`
            have hsub' : AMap.keys ({ m with chan := chan }.book msg).results ⊆ wf.jobs.map Prod.fst := by
              intro y hy
              obtain ⟨msg', hm, rfl⟩ := (inv'.keys y).1 hy
              obtain ⟨job, _, hmem, _⟩ := received_run inv' hm
              exact List.mem_map.2 ⟨_, hmem, rfl⟩
            have hnd : (AMap.keys ({ m with chan := chan }.book msg).results).Nodup := inv'.nodup
            have hle : (wf.jobs.map Prod.fst).length ≤
                (AMap.keys ({ m with chan := chan }.book msg).results).length := by
              have hlen' : ({ m with chan := chan }.book msg).results.length = wf.jobs.length := by
                rw [← inv.same]; exact hlen
              simp [AMap.keys, hlen']
            have hperm := (List.subperm_of_subset hnd hsub').perm_of_length_le hle
            exact hk' (hperm.mem_iff.2 (List.mem_map.2 ⟨_, hj, rfl⟩))
          · rename_i hlen
            rw [rescan_eq]
            refine ⟨p4, fun _ => ?_⟩
            right
            have hmem : (k, j) ∈ readyJobs ({ m with chan := chan }.book msg) := by
              have hk2 : k ∉ AMap.keys ({ m with chan := chan }.book msg).results := by
                rw [if_neg hlen, rescan_eq] at hk'; exact hk'
              have hkm : k ≠ msg.key := fun h => hk2 ((AMap.mem_keys_insert _ _ _ _).2 (.inl h))
              refine List.mem_filter.2 ⟨List.mem_filter.2 ⟨?_, by simpa using hkm⟩, ?_⟩
              · have hw : m.waiting = _ := hb.1.waiting
                show (k, j) ∈ m.waiting
                rw [hw]
                refine List.mem_filter.2 ⟨hj, ?_⟩
                simp only [Bool.and_eq_true, Bool.not_eq_true', List.any_eq_false, beq_iff_eq]
                refine ⟨?_, fun y hy hyk => hk ((inv.keys k).2 ⟨y, hy, hyk⟩)⟩
                simp only [isRoot]
                cases hh : j.dependsOn with
                | nil => exact absurd hh hdep
                | cons => rfl
              · simp only [Bool.and_eq_true, Bool.not_eq_true']
                refine ⟨?_, (allFinished_iff _ _).2 fun d hdj =>
                  (AMap.mem_keys_insert _ _ _ _).2 (.inr (p2 d hdj))⟩
                cases hh : j.dependsOn with
                | nil => exact absurd hh hdep
                | cons => rfl
            obtain ⟨n, hn⟩ := List.mem_iff_getElem?.1 hmem
            have hi_lt : i < m.tasks.length := by
              obtain ⟨t, ht, _⟩ := p3
              exact (List.getElem?_eq_some_iff.1 ht).1
            refine ⟨m.tasks.length + n, by omega, { key := k, job := j }, ?_, rfl⟩
            show (m.tasks ++ _)[m.tasks.length + n]? = _
            rw [List.getElem?_append_right (by omega), Nat.add_sub_cancel_left, List.getElem?_map, hn]
            rfl
        · simp at hs
      case check b now => simp [p4] at hs
      case spawn => simp [p4] at hs
      case announce => simp [p4] at hs
      case complete => simp [p4] at hs
      case begin i env =>
        split at hs
        · cases hs; exact ⟨p4, .inl⟩
        · simp at hs
      case emit i =>
        split at hs
        · cases hs; exact ⟨p4, .inl⟩
        · split at hs <;> (cases hs; exact ⟨p4, .inl⟩)
        · simp at hs
      case send i =>
        rw [p4] at hs
        simp only at hs
        split at hs
        · split at hs
          · cases hs; exact ⟨p4, .inl⟩
          · simp at hs
        · simp at hs
    refine ⟨hid', fun d hdj => mono.2 d (p2 d hdj), ⟨i, runMono _ _ _ hs _ _ p3⟩, hpcx.1, fun hx => ?_⟩
    rcases hpcx.2 hx with h | ⟨i', h1, h2⟩
    · obtain ⟨a1, a2, a3, a4, a5⟩ := p5 h
      exact ⟨a1, a2, a3, runMono _ _ _ hs _ _ a4, runMono _ _ _ hs _ _ a5⟩
    · exact ⟨i, i', h1, runMono _ _ _ hs _ _ p3, h2⟩
  have hP1 : P m1 := by
    refine ⟨fun i t ht hy => hid1 i t ht (.inl hy), hdk, ⟨i1, hi1⟩, hpc1, fun hx => ?_⟩
    exact absurd hx (hid1.not_received inv1 (.inr rfl))
  obtain ⟨acts2, m2, hr2, hkp2, hP2, hst2⟩ := run_until_stuck ho (fun y => y = k) P hP m1 _ hr1 hkp1 hP1
  have hx2 : x ∈ AMap.keys m2.results := by
    refine stuck_received hu ho hd ha hr2 hkp2 hP2.2.2.2.1 hst2 x jx hjx ?_
    rintro b rfl hreach
    rcases Relation.reflTransGen_iff_eq_or_transGen.1 hreach with h | h
    · exact hxk h.symm
    · exact hxk' h
  obtain ⟨i, i', hne, h1, h2⟩ := hP2.2.2.2.2 hx2
  exact hne (hall _ m2 hr2 i i' k h1 h2)

/-- Jobs on a dependency cycle are never started. -/
theorem cycle_never_started {wf : Workflow} (hu : UniqueJobs wf) {acts : List WfAct} {m : WfM}
    (h : WfReach wf acts m) (k : Id) (hk : Relation.TransGen (DependsOn wf) k k) (i : Nat) : ¬ IsRunOf m i k := by
  suffices H : WfInv wf m ∧ ∀ i k, Relation.TransGen (DependsOn wf) k k → ¬ IsRunOf m i k from H.2 i k hk
  refine runs_induct (P := fun _ m => WfInv wf m ∧ ∀ i k, Relation.TransGen (DependsOn wf) k k → ¬ IsRunOf m i k)
    ⟨WfInv.initial wf, ?_⟩ ?_ h
  · rintro i k - ⟨t, ht, _⟩
    simp [WfM.initial] at ht
  · rintro _ a m m' _ ⟨inv, ih⟩ hs
    have inv' := inv.step hs
    refine ⟨inv', ?_⟩
    rintro i k hc ⟨t, ht, rfl⟩
    -- a dependency on the same cycle
    obtain ⟨d, hkd, hdk⟩ := Relation.TransGen.head'_iff.1 hc
    have hdd : Relation.TransGen (DependsOn wf) d d := Relation.TransGen.tail' hdk hkd
    obtain ⟨j, hj, hdj⟩ := hkd
    have : j = t.job := job_unique hu hj (inv'.job i t ht)
    subst this
    obtain ⟨msg, hm, rfl, _⟩ := inv'.order i t ht d hdj
    have hold : msg ∈ m.received ∨ msg ∈ m.chan := by
      cases a <;> simp only [WfM.step] at hs
      case check b now =>
        split at hs
        · split at hs <;> (cases hs; exact .inl hm)
        · simp at hs
      case spawn =>
        split at hs
        · cases hs; exact .inl hm
        · cases hs
          unfold WfM.setupJob at hm
          split at hm <;> exact .inl hm
        · simp at hs
      case recv now =>
        split at hs
        · rename_i msg' chan hpc hc
          cases hs
          have hm' : msg ∈ m.received ++ [msg'] := by
            unfold WfM.handle at hm
            simp only at hm
            split at hm
            · exact hm
            · rw [rescan_eq] at hm; exact hm
          rcases List.mem_append.1 hm' with h | h
          · exact .inl h
          · simp at h; subst h; exact .inr (by rw [hc]; simp)
        · simp at hs
      case announce => split at hs <;> simp at hs; subst hs; exact .inl hm
      case complete => split at hs <;> simp at hs; subst hs; exact .inl hm
      case begin i env => split at hs <;> simp at hs; subst hs; exact .inl hm
      case emit i =>
        split at hs
        · simp at hs; subst hs; exact .inl hm
        · split at hs <;> (simp at hs; subst hs; exact .inl hm)
        · simp at hs
      case send i =>
        split at hs
        · split at hs
          · simp at hs; subst hs; exact .inl hm
          · split at hs
            · simp at hs; subst hs; exact .inl hm
            · simp at hs
        · simp at hs
    obtain ⟨t', h1, h2, _⟩ : MsgOk m msg := by
      rcases hold with h | h
      · exact inv.recd msg h
      · exact inv.chan msg h
    exact ih msg.sender msg.key hdd ⟨t', h1, h2⟩

/-- **C06** is decided by the shape of the dependencies: a workflow with at least one job, whose dependencies are
all defined, can run to its return if and only if they form no cycle; with a cycle, no schedule at all returns
anything but Skipped. -/
theorem C06_returns_exactly_acyclic (wf : Workflow) (hu : UniqueJobs wf) (ho : OwnIds wf) (hd : DepsDefined wf)
    (hne : wf.jobs ≠ []) :
    (∃ acts m r, WfReach wf acts m ∧ HooksKeepJob wf acts ∧ m.pc = .returned r ∧ r.state ≠ .skipped) ↔
      Acyclic wf := by
  constructor
  · rintro ⟨acts, m, r, h, _, hr, hs⟩ a hc
    obtain ⟨j, hj⟩ : ∃ j, (a, j) ∈ wf.jobs := by
      obtain ⟨d, ⟨j, hj, _⟩, _⟩ := Relation.TransGen.head'_iff.1 hc
      exact ⟨j, hj⟩
    obtain ⟨i, _, hi, _⟩ := (C05_dependents_run_anyway wf hu acts m h).2 r hr hs a j hj
    exact cycle_never_started hu h a hc i hi
  · intro ha
    have h0 : ∃ m0, WfReach wf [.check true 0] m0 := by
      have hskip : shouldSkip wf.on true = false := by cases wf.on <;> rfl
      exact ⟨_, by simp only [WfReach, runs, WfM.step, WfM.initial, hskip]; rfl⟩
    obtain ⟨m0, h0⟩ := h0
    have hk0 : HooksKeepJob wf [.check true 0] := by intro i env he; simp at he
    obtain ⟨more, m', r, h1, h2, h3⟩ := (C06_acyclic_returns_partial wf hu ho hd ha hne _ m0 h0 hk0).2
    exact ⟨_, m', r, h1, h2, h3, ((C08_skipped_workflow wf true 0 more m' h1).2 (.inr rfl) r h3).1⟩

/-- **C06 is false of the code**: there is an accepted configuration (one job without dependencies, two jobs
waiting for each other) that no schedule ever brings to its return, although no schedule goes on forever. -/
theorem C06_refuted : ∃ (env : ParseEnv) (w : UserWorkflow) (wf : Workflow),
    w.validate = .ok () ∧ buildWorkflow env "w" w = .ok wf ∧
    (∀ acts m, WfReach wf acts m → ∀ r, m.pc ≠ .returned r) ∧
    ∃ acts m, WfReach wf acts m ∧ (∀ (i : Nat) (t : WfTask), m.tasks[i]? = some t → t.pc = .done) ∧ ∀ a, m.step a = none := by
  have hb : buildWorkflow ParserEx.env "w" ConfigEx.cyclic = .ok WorkflowEx.cyclic := by decide
  refine ⟨ParserEx.env, ConfigEx.cyclic, WorkflowEx.cyclic, by decide, hb, ?_, ?_⟩
  · intro acts m h r hr
    have hs : r.state ≠ .skipped := by
      intro hs
      have hbk := (pcBook_reach h).2
      have hv : m.view.pc = .returned r := hr
      unfold PcBook at hbk
      simp only [hv] at hbk
      cases acts with
      | nil => simp [WfReach, runs, WfM.initial] at h; subst h; simp at hr
      | cons a acts =>
        cases a with
        | check b now => exact ((C08_skipped_workflow _ b now acts m h).2 (.inl rfl) r hr).1 hs
        | _ => simp [WfReach, runs, WfM.step, WfM.initial] at h
    have hu : UniqueJobs WorkflowEx.cyclic := by unfold UniqueJobs; decide
    have hcyc : Relation.TransGen (DependsOn WorkflowEx.cyclic) "b" "b" :=
      .tail (.single (b := "c") ⟨WorkflowEx.job "b" ["c"], by decide, by decide⟩)
        ⟨WorkflowEx.job "c" ["b"], by decide, by decide⟩
    obtain ⟨i, _, hi, _⟩ := (C05_dependents_run_anyway _ hu acts m h).2 r hr hs "b" (WorkflowEx.job "b" ["c"])
      (by decide)
    exact cycle_never_started hu h _ hcyc i hi
  · refine ⟨WorkflowEx.cyclicActs, WorkflowEx.after WorkflowEx.cyclic WorkflowEx.cyclicActs, ?_, ?_, ?_⟩
    · unfold WfReach; rfl
    · intro i t ht
      have hall : ∀ t ∈ (WorkflowEx.after WorkflowEx.cyclic WorkflowEx.cyclicActs).tasks, t.pc = .done := by decide
      exact hall t (List.mem_of_getElem? ht)
    · have htasks : (WorkflowEx.after WorkflowEx.cyclic WorkflowEx.cyclicActs).tasks.map WfTask.pc = [.done] := by
        decide
      intro a
      cases a with
      | begin i env => rcases i with _ | i <;> rfl
      | emit i => rcases i with _ | i <;> rfl
      | send i => rcases i with _ | i <;> rfl
      | _ => rfl

/-- **C02 is false of the code**: there is an accepted configuration (`c` waits for `a`, `b` is independent) and
a schedule in which `c` is started twice and both runs reach `Runner::run`. -/
theorem C02_refuted : ∃ (env : ParseEnv) (w : UserWorkflow) (wf : Workflow) (acts : List WfAct) (m : WfM)
    (i j : Nat) (k : Id) (c : Command),
    buildWorkflow env "w" w = .ok wf ∧ WfReach wf acts m ∧ IsRunOf m i k ∧ IsRunOf m j k ∧ i ≠ j ∧
    .runnerRun c ∈ eventsOf i m.trace ∧ .runnerRun c ∈ eventsOf j m.trace := by
  refine ⟨ParserEx.env, WorkflowEx.twoRootsConfig, WorkflowEx.twoRoots,
    WorkflowEx.twoRootsActs ++ WorkflowEx.runTask 2 {} ++ WorkflowEx.runTask 3 {},
    WorkflowEx.after WorkflowEx.twoRoots (WorkflowEx.twoRootsActs ++ WorkflowEx.runTask 2 {} ++ WorkflowEx.runTask 3 {}),
    2, 3, "c", { id := ⟨"w", "c", 0⟩, run := "true", timeout := 3600 }, by decide, ?_, ?_, ?_, by decide, ?_, ?_⟩
  · unfold WfReach; rfl
  · exact ⟨_, rfl, by decide⟩
  · exact ⟨_, rfl, by decide⟩
  · decide
  · decide

/-! ## Witnesses

`chain` meets all conditions of C02 and C06 (a schedule for it is in `Verif.Props.Workflow`); `twoRoots` meets all
but `NoParallelDependents`; `cyclic` all but `Acyclic`. -/

open WorkflowEx in
theorem chain_acyclic : Acyclic chain := by
  -- every dependency decreases this rank
  let rank : Id → Nat := fun k => if k = "build" then 0 else if k = "test" then 1 else 2
  have hlt : ∀ a b, DependsOn chain a b → rank b < rank a := by
    rintro a b ⟨j, hj, hb⟩
    simp only [chain, List.mem_cons, Prod.mk.injEq, List.not_mem_nil, or_false] at hj
    rcases hj with ⟨rfl, rfl⟩ | ⟨rfl, rfl⟩ | ⟨rfl, rfl⟩ <;> simp [job] at hb
    · rcases hb with rfl | rfl <;> decide
    · subst hb; decide
  intro a hc
  have : ∀ b, Relation.TransGen (DependsOn chain) a b → rank b < rank a := by
    intro b h
    induction h with
    | single h => exact hlt _ _ h
    | tail _ h ih => exact Nat.lt_trans (hlt _ _ h) ih
  exact absurd (this a hc) (Nat.lt_irrefl _)

open WorkflowEx in
example : UniqueJobs chain ∧ OwnIds chain ∧ DepsDefined chain ∧ Acyclic chain ∧ chain.jobs ≠ [] ∧
    NoParallelDependents chain ∧ HooksKeepJob chain chainActs := by
  refine ⟨by unfold UniqueJobs; decide, ⟨?_, ?_⟩, ?_, chain_acyclic, by decide, ?_, ?_⟩
  · intro k j k' j' hj hj' he
    simp only [chain, List.mem_cons, Prod.mk.injEq, List.not_mem_nil, or_false] at hj hj'
    rcases hj with ⟨rfl, rfl⟩ | ⟨rfl, rfl⟩ | ⟨rfl, rfl⟩ <;> rcases hj' with ⟨rfl, rfl⟩ | ⟨rfl, rfl⟩ | ⟨rfl, rfl⟩ <;>
      simp [job] at he ⊢
  · intro k j hj s hs
    simp only [chain, List.mem_cons, Prod.mk.injEq, List.not_mem_nil, or_false] at hj
    rcases hj with ⟨rfl, rfl⟩ | ⟨rfl, rfl⟩ | ⟨rfl, rfl⟩ <;> simp [job] at hs <;> subst hs <;> rfl
  · intro k j hj d hd
    simp only [chain, List.mem_cons, Prod.mk.injEq, List.not_mem_nil, or_false] at hj
    rcases hj with ⟨rfl, rfl⟩ | ⟨rfl, rfl⟩ | ⟨rfl, rfl⟩ <;> simp [job] at hd
    · rcases hd with rfl | rfl
      · exact ⟨job "test" ["build"], by decide⟩
      · exact ⟨job "build" [], by decide⟩
    · subst hd; exact ⟨job "build" [], by decide⟩
  · have hdt : DependsOn chain "deploy" "test" := ⟨job "deploy" ["test", "build"], by decide, by decide⟩
    have hdb : DependsOn chain "deploy" "build" := ⟨job "deploy" ["test", "build"], by decide, by decide⟩
    have htb : DependsOn chain "test" "build" := ⟨job "test" ["build"], by decide, by decide⟩
    intro k j hj hne x j' hj' hx
    simp only [chain, List.mem_cons, Prod.mk.injEq, List.not_mem_nil, or_false] at hj hj'
    rcases hj with ⟨rfl, rfl⟩ | ⟨rfl, rfl⟩ | ⟨rfl, rfl⟩ <;> rcases hj' with ⟨rfl, rfl⟩ | ⟨rfl, rfl⟩ | ⟨rfl, rfl⟩ <;>
      first
        | exact absurd rfl hx
        | exact absurd rfl hne
        | exact .inl (.single hdt)
        | exact .inl (.single hdb)
        | exact .inl (.single htb)
        | exact .inr (.single hdt)
  · intro i env he k j hj n s hs
    have henv : env.step n = failing.step n ∨ env.step n = ({} : JobEnv).step n := by
      simp [chainActs, runTask] at he
      rcases he with ⟨_, rfl⟩ | ⟨_, rfl⟩ | ⟨_, rfl⟩
      · exact .inl rfl
      · exact .inr rfl
      · exact .inr rfl
    have hb : (env.step n).before s = s := by rcases henv with h | h <;> rw [h] <;> rfl
    rw [hb]
    simp only [chain, List.mem_cons, Prod.mk.injEq, List.not_mem_nil, or_false] at hj
    rcases hj with ⟨rfl, rfl⟩ | ⟨rfl, rfl⟩ | ⟨rfl, rfl⟩ <;> rcases n with _ | n <;> simp [job] at hs <;>
      subst hs <;> rfl

/-- Two of three jobs of `twoRoots` have no dependencies. -/
example : UniqueJobs WorkflowEx.twoRoots ∧ ("b", WorkflowEx.job "b" []) ∈ WorkflowEx.twoRoots.jobs ∧
    (WorkflowEx.job "b" []).dependsOn = [] ∧
    IsRunOf (WorkflowEx.after WorkflowEx.twoRoots WorkflowEx.twoRootsActs) 0 "b" :=
  ⟨by unfold UniqueJobs; decide, by decide, rfl, ⟨_, rfl, by decide⟩⟩

/-- `C06_parsed_workflows` applies to a configuration with three jobs. -/
example : UniqueKeys ConfigEx.good ∧ (∃ wf, buildWorkflow ParserEx.env "w" ConfigEx.good = .ok wf) ∧
    ¬ HasCycle ConfigEx.good := by
  refine ⟨by decide, ⟨_, rfl⟩, ?_⟩
  let rank : Id → Nat := fun k => if k = "build" then 0 else if k = "test" then 1 else 2
  have hlt : ∀ a b, WaitsFor ConfigEx.good a b → rank b < rank a := by
    rintro a b ⟨j, hj, hb⟩
    simp only [ConfigEx.good, List.mem_cons, Prod.mk.injEq, List.not_mem_nil, or_false] at hj
    rcases hj with ⟨rfl, rfl⟩ | ⟨rfl, rfl⟩ | ⟨rfl, rfl⟩ <;> simp [ConfigEx.job, deps] at hb
    · subst hb; decide
    · rcases hb with rfl | rfl <;> decide
  rintro ⟨a, hc⟩
  have : ∀ b, Relation.TransGen (WaitsFor ConfigEx.good) a b → rank b < rank a := by
    intro b h
    induction h with
    | single h => exact hlt _ _ h
    | tail _ h ih => exact Nat.lt_trans (hlt _ _ h) ih
  exact absurd (this a hc) (Nat.lt_irrefl _)

end AstroRun
