import Verif.Lemmas.Parser
import Verif.Props.Config
import Mathlib.Data.List.Forall2
import Mathlib.Data.List.Nodup

/-! # C36–C39: parsing -/

namespace AstroRun
open Spec

/-- The job map of a configuration has one entry per key (it is a `HashMap`). -/
abbrev UniqueKeys (w : UserWorkflow) : Prop := (w.jobs.map Prod.fst).Nodup

theorem parseWorkflow_inv {env : ParseEnv} {id : Id} {w : UserWorkflow} {wf : Workflow} (hu : UniqueKeys w)
    (h : parseWorkflow env id w = .ok wf) :
    wf.id = ⟨id⟩ ∧ wf.name = w.name ∧ wf.on = w.on ∧ (wf.jobs.map Prod.fst).Nodup ∧
      (∀ k uj, (k, uj) ∈ w.jobs → ∃ j, (k, j) ∈ wf.jobs ∧ parseJob env id k uj = .ok j) ∧
      (∀ k j, (k, j) ∈ wf.jobs → ∃ uj, (k, uj) ∈ w.jobs ∧ parseJob env id k uj = .ok j) := by
  simp only [parseWorkflow] at h
  split at h
  · simp at h
  · rename_i m hm
    cases h
    obtain ⟨h1, h2, h3⟩ := parseJobs_ok hu hm
    have hnd := h3 (by simp [AMap.keys])
    refine ⟨rfl, rfl, rfl, hnd, ?_, ?_⟩
    · intro k uj hmem
      obtain ⟨j, hj, hg⟩ := h1 k uj hmem
      exact ⟨j, AMap.mem_of_get? hg, hj⟩
    · intro k j hmem
      have hg := AMap.get?_of_mem hnd hmem
      by_cases hk : k ∈ AMap.keys w.jobs
      · obtain ⟨⟨k', uj⟩, he, rfl⟩ := List.mem_map.1 hk
        obtain ⟨j', hj', hg'⟩ := h1 _ _ he
        rw [hg] at hg'
        cases hg'
        exact ⟨uj, he, hj'⟩
      · rw [h2 k hk] at hg; simp at hg

theorem parseJob_inv {env : ParseEnv} {id k : Id} {uj : UserJob} {j : Job}
    (h : parseJob env id k uj = .ok j) :
    ∃ us, tryNormalizeUserSteps env uj.steps = .ok us ∧ parseSteps env id k uj.container 0 us = .ok j.steps ∧
      j.id = ⟨id, k⟩ ∧ j.name = uj.name ∧ j.on = uj.on ∧ j.dependsOn = uj.dependsOn.getD [] ∧
      j.workingDirectories = uj.workingDirs.getD [] := by
  simp only [parseJob] at h
  split at h
  · simp at h
  · rename_i us hus
    split at h
    · simp at h
    · rename_i steps hs
      cases h
      exact ⟨us, hus, hs, rfl, rfl, rfl, rfl, rfl⟩

/-- **C36** Keys, job ids and step ids of a parsed workflow; all step ids are distinct. -/
theorem C36_parsed_identifiers (env : ParseEnv) (id : Id) (w : UserWorkflow) (wf : Workflow)
    (hu : UniqueKeys w) (h : parseWorkflow env id w = .ok wf) :
    wf.id = ⟨id⟩ ∧
    (wf.jobs.map Prod.fst).Nodup ∧
    (∀ k, k ∈ wf.jobs.map Prod.fst ↔ k ∈ w.jobs.map Prod.fst) ∧
    (∀ k j, (k, j) ∈ wf.jobs → j.id = ⟨id, k⟩ ∧
      ∀ (i : Nat) (hi : i < j.steps.length), j.steps[i].id = ⟨id, k, i⟩) ∧
    (wf.jobs.flatMap (fun e => e.2.steps.map Step.id)).Nodup := by
  obtain ⟨h1, _, _, h2, h3, h4⟩ := parseWorkflow_inv hu h
  have hids : ∀ k j, (k, j) ∈ wf.jobs → j.id = ⟨id, k⟩ ∧
      ∀ (i : Nat) (hi : i < j.steps.length), j.steps[i].id = ⟨id, k, i⟩ := by
    intro k j hm
    obtain ⟨uj, _, hp⟩ := h4 k j hm
    obtain ⟨us, _, hs, hid, _⟩ := parseJob_inv hp
    refine ⟨hid, fun i hi => ?_⟩
    obtain ⟨cmds, _, hl, hall⟩ := parseSteps_ok hs
    have := (hall i hi (hl ▸ hi)).1
    simpa using this
  refine ⟨h1, h2, ?_, hids, ?_⟩
  · intro k
    constructor
    · intro hk
      obtain ⟨⟨k', j⟩, he, rfl⟩ := List.mem_map.1 hk
      obtain ⟨uj, hm, _⟩ := h4 _ _ he
      exact List.mem_map.2 ⟨_, hm, rfl⟩
    · intro hk
      obtain ⟨⟨k', uj⟩, he, rfl⟩ := List.mem_map.1 hk
      obtain ⟨j, hm, _⟩ := h3 _ _ he
      exact List.mem_map.2 ⟨_, hm, rfl⟩
  · have hmemid : ∀ k j, (k, j) ∈ wf.jobs → ∀ x ∈ j.steps.map Step.id, x.job = k := by
      intro k j hm x hx
      obtain ⟨s, hs, rfl⟩ := List.mem_map.1 hx
      obtain ⟨i, hi, rfl⟩ := List.getElem_of_mem hs
      rw [(hids k j hm).2 i hi]
    have hself : ∀ k j, (k, j) ∈ wf.jobs → (j.steps.map Step.id).Nodup := by
      intro k j hm
      rw [List.nodup_iff_injective_getElem]
      intro a b hab
      have ha := (hids k j hm).2 a.1 (by simpa using a.2)
      have hb := (hids k j hm).2 b.1 (by simpa using b.2)
      simp only [List.getElem_map, ha, hb, StepId.mk.injEq, true_and] at hab
      exact Fin.ext hab
    generalize wf.jobs = l at h2 hmemid hself
    clear h h1 h3 h4 hids
    induction l with
    | nil => simp
    | cons e l ih =>
      obtain ⟨k, j⟩ := e
      simp only [List.flatMap_cons]
      have h2' : k ∉ l.map Prod.fst ∧ (l.map Prod.fst).Nodup := by simpa using h2
      rw [List.nodup_append]
      refine ⟨hself k j (by simp), ih h2'.2 (fun k j hm => hmemid k j (by simp [hm]))
        (fun k j hm => hself k j (by simp [hm])), ?_⟩
      intro x hx y hy hxy
      subst hxy
      have e1 := hmemid k j (by simp) x hx
      obtain ⟨⟨k', j'⟩, hm', hx'⟩ := List.mem_flatMap.1 hy
      have e2 := hmemid k' j' (by simp [hm']) x hx'
      exact h2'.1 (List.mem_map.2 ⟨_, hm', by rw [← e1, e2]⟩)

/-- **C37** and **C38** in one: job `k` of a parsed workflow consists of exactly the runnable counterparts of
the expansion (pre steps in order, bodies in order, post steps reversed) of its configured steps. -/
theorem parsed_job_meaning (env : ParseEnv) (id : Id) (w : UserWorkflow) (wf : Workflow)
    (hu : UniqueKeys w) (h : parseWorkflow env id w = .ok wf) (k : Id) (uj : UserJob) (hk : (k, uj) ∈ w.jobs)
    (j : Job) (hj : (k, j) ∈ wf.jobs) :
    ∃ (r : UserActionStep → ActionSteps) (cmds : List UserCommandStep),
      (∀ a, .action a ∈ uj.steps → ∃ act, Provides env a act ∧ act a = .ok (r a)) ∧
      expansion r uj.steps = cmds.map .command ∧
      List.Forall₂ (StepOf env uj.container) cmds j.steps ∧
      j.name = uj.name ∧ j.on = uj.on ∧ j.dependsOn = uj.dependsOn.getD [] ∧
      j.workingDirectories = uj.workingDirs.getD [] := by
  obtain ⟨_, _, _, h2, _, h4⟩ := parseWorkflow_inv hu h
  obtain ⟨uj', hm', hp⟩ := h4 k j hj
  have e1 := AMap.get?_of_mem (m := w.jobs) hu hm'
  have e2 := AMap.get?_of_mem (m := w.jobs) hu hk
  rw [e1] at e2; cases e2
  obtain ⟨us, hus, hs, hid, hname, hon, hdep, hwd⟩ := parseJob_inv hp
  obtain ⟨hr, hout⟩ := normalizeLoop_ok hus
  obtain ⟨cmds, hc, hl, hall⟩ := parseSteps_ok hs
  refine ⟨resolveD env, cmds, ?_, ?_, ?_, hname, hon, hdep, hwd⟩
  · intro a ha
    have := hr a ha
    by_cases hpv : ∃ act, Provides env a act
    · obtain ⟨act, hact⟩ := hpv
      exact ⟨act, hact, by rw [← tryNormalizeAction_of_provides hact, this]⟩
    · rw [tryNormalizeAction_none (fun act hact => hpv ⟨act, hact⟩)] at this
      simp at this
  · rw [← hc, hout]; simp [expansion]
  · rw [List.forall₂_iff_get]
    exact ⟨hl.symm, fun i h1 h2 => (hall i h2 h1).2⟩

/-- **C37** The commands a job runs, in order, are those of: the pre steps of its actions in order, the steps
and action bodies in configured order, the post steps in reverse order. -/
theorem C37_expansion_order (env : ParseEnv) (id : Id) (w : UserWorkflow) (wf : Workflow)
    (hu : UniqueKeys w) (h : parseWorkflow env id w = .ok wf) (k : Id) (uj : UserJob) (hk : (k, uj) ∈ w.jobs) :
    ∃ (j : Job) (r : UserActionStep → ActionSteps) (cmds : List UserCommandStep), (k, j) ∈ wf.jobs ∧
      (∀ a, .action a ∈ uj.steps → ∃ act, Provides env a act ∧ act a = .ok (r a)) ∧
      uj.steps.filterMap (preOf r) ++ uj.steps.map (bodyOf r) ++ (uj.steps.filterMap (postOf r)).reverse
        = cmds.map .command ∧
      j.steps.map (fun s => (s.name, s.run)) = cmds.map (fun c => (c.name, c.run)) := by
  obtain ⟨_, _, _, _, h3, _⟩ := parseWorkflow_inv hu h
  obtain ⟨j, hj, _⟩ := h3 k uj hk
  obtain ⟨r, cmds, a1, a2, a3, _⟩ := parsed_job_meaning env id w wf hu h k uj hk j hj
  refine ⟨j, r, cmds, hj, a1, a2, ?_⟩
  clear a1 a2 hj
  generalize j.steps = ss at a3
  induction a3 with
  | nil => rfl
  | cons hx _ ih => simp [hx.name, hx.run, ih]

/-- **C38** The workflow's own name and condition are the configured ones. -/
theorem C38_workflow_fields (env : ParseEnv) (id : Id) (w : UserWorkflow) (wf : Workflow)
    (hu : UniqueKeys w) (h : parseWorkflow env id w = .ok wf) : wf.name = w.name ∧ wf.on = w.on :=
  ⟨(parseWorkflow_inv hu h).2.1, (parseWorkflow_inv hu h).2.2.1⟩

/-- **C38** Every parsed step is a configured (or action-supplied) command with the documented defaults and
inherited container; job-level lists default to empty. -/
theorem C38_defaults (env : ParseEnv) (id : Id) (w : UserWorkflow) (wf : Workflow)
    (hu : UniqueKeys w) (h : parseWorkflow env id w = .ok wf) (k : Id) (j : Job) (hj : (k, j) ∈ wf.jobs) :
    ∃ (uj : UserJob) (r : UserActionStep → ActionSteps) (cmds : List UserCommandStep), (k, uj) ∈ w.jobs ∧
      expansion r uj.steps = cmds.map .command ∧
      List.Forall₂ (StepOf env uj.container) cmds j.steps ∧
      j.name = uj.name ∧ j.on = uj.on ∧
      (∀ ds, uj.dependsOn = some ds → j.dependsOn = ds) ∧ (uj.dependsOn = none → j.dependsOn = []) ∧
      (∀ ds, uj.workingDirs = some ds → j.workingDirectories = ds) ∧
      (uj.workingDirs = none → j.workingDirectories = []) := by
  obtain ⟨_, _, _, _, _, h4⟩ := parseWorkflow_inv hu h
  obtain ⟨uj, hm, _⟩ := h4 k j hj
  obtain ⟨r, cmds, _, a2, a3, a4, a5, a6, a7⟩ := parsed_job_meaning env id w wf hu h k uj hm j hj
  exact ⟨uj, r, cmds, hm, a2, a3, a4, a5, by simp_all, by simp_all, by simp_all, by simp_all⟩

/-- **C39** Resolution of a `uses` step. -/
theorem C39_action_resolution (env : ParseEnv) (a : UserActionStep) :
    (∀ act, Provides env a act → tryNormalizeAction env a = act a) ∧
    ((∀ act, ¬ Provides env a act) →
      tryNormalizeAction env a = .error (.workflowConfigError ("Action `" ++ a.uses ++ "` is not found"))) ∧
    (AMap.get? env.actions a.uses = none → (∀ p ∈ env.plugins, Declines p a) → ∀ act, ¬ Provides env a act) ∧
    (∀ act act', Provides env a act → Provides env a act' → act = act') := by
  refine ⟨fun act h => tryNormalizeAction_of_provides h, tryNormalizeAction_none, ?_, ?_⟩
  · intro h1 h2 act hp
    rcases provides_iff.1 hp with h | ⟨_, h⟩
    · rw [h1] at h; simp at h
    · rw [driverResolve_none.2 h2] at h; simp at h
  · intro act act' h h'
    rcases provides_iff.1 h with h | ⟨h1, h2⟩ <;> rcases provides_iff.1 h' with h' | ⟨h1', h2'⟩
    · rw [h] at h'; exact Option.some.inj h'
    · rw [h] at h1'; simp at h1'
    · rw [h'] at h1; simp at h1
    · rw [h2] at h2'; exact Option.some.inj h2'

/-- **C39** Parsing fails exactly when for some job: an action cannot be resolved or its normalisation fails,
an expanded step is itself an action, or a timeout is not a duration.  The error reported is that of a job. -/
theorem C39_parse_succeeds_iff (env : ParseEnv) (id : Id) (w : UserWorkflow) (hu : UniqueKeys w) :
    ((∃ wf, parseWorkflow env id w = .ok wf) ↔
      ∀ k uj, (k, uj) ∈ w.jobs → ∃ (r : UserActionStep → ActionSteps) (cmds : List UserCommandStep),
        (∀ a, .action a ∈ uj.steps → ∃ act, Provides env a act ∧ act a = .ok (r a)) ∧
        expansion r uj.steps = cmds.map .command ∧
        ∀ c ∈ cmds, (env.durations (c.timeout.getD "60m")).isSome) := by
  constructor
  · rintro ⟨wf, h⟩ k uj hk
    obtain ⟨_, _, _, _, h3, _⟩ := parseWorkflow_inv hu h
    obtain ⟨j, hj, _⟩ := h3 k uj hk
    obtain ⟨r, cmds, a1, a2, a3, _⟩ := parsed_job_meaning env id w wf hu h k uj hk j hj
    refine ⟨r, cmds, a1, a2, ?_⟩
    clear a2 a1 hj
    generalize j.steps = ss at a3
    induction a3 with
    | nil => simp
    | @cons c s _ _ hx _ ih =>
      intro c' hc'
      rcases List.mem_cons.1 hc' with rfl | hc'
      · rcases ht : c'.timeout with _ | t
        · simp [hx.defaultTimeout ht]
        · simp [hx.ownTimeout t ht]
      · exact ih c' hc'
  · intro hall
    have : ∃ m, parseJobs env id w.jobs [] = .ok m := by
      apply parseJobs_total
      intro k uj hk
      obtain ⟨r, cmds, a1, a2, a3⟩ := hall k uj hk
      have hr : ∀ a, .action a ∈ uj.steps → tryNormalizeAction env a = .ok (r a) := by
        intro a ha
        obtain ⟨act, h1, h2⟩ := a1 a ha
        rw [tryNormalizeAction_of_provides h1, h2]
      have hn : ∃ us, tryNormalizeUserSteps env uj.steps = .ok us := by
        unfold tryNormalizeUserSteps
        have : ∀ (us pre mid post : List UserStep), (∀ a, .action a ∈ us → tryNormalizeAction env a = .ok (r a)) →
            ∃ out, normalizeLoop env us pre mid post = .ok out := by
          intro us
          induction us with
          | nil => intro pre mid post _; exact ⟨_, rfl⟩
          | cons u us ih =>
            intro pre mid post h
            cases u with
            | command c => exact ih _ _ _ (fun a ha => h a (by simp [ha]))
            | action a =>
              simp only [normalizeLoop, h a (by simp)]
              exact ih _ _ _ (fun a ha => h a (by simp [ha]))
        exact this _ _ _ _ hr
      obtain ⟨us, hus⟩ := hn
      obtain ⟨b1, b2⟩ := normalizeLoop_ok hus
      have hus' : us = cmds.map .command := by
        rw [← a2, b2]
        simp only [expansion, List.nil_append, List.append_nil]
        have hcongr : ∀ a, .action a ∈ uj.steps → resolveD env a = r a := by
          intro a ha
          have := b1 a ha
          rw [hr a ha] at this
          exact (Except.ok.inj this).symm
        have e1 : uj.steps.filterMap (preOf (resolveD env)) = uj.steps.filterMap (preOf r) := by
          apply List.filterMap_congr
          intro u hu
          cases u with
          | command c => rfl
          | action a => simp [preOf, hcongr a hu]
        have e2 : uj.steps.map (bodyOf (resolveD env)) = uj.steps.map (bodyOf r) := by
          apply List.map_congr_left
          intro u hu
          cases u with
          | command c => rfl
          | action a => simp [bodyOf, hcongr a hu]
        have e3 : uj.steps.filterMap (postOf (resolveD env)) = uj.steps.filterMap (postOf r) := by
          apply List.filterMap_congr
          intro u hu
          cases u with
          | command c => rfl
          | action a => simp [postOf, hcongr a hu]
        rw [e1, e2, e3]
      have hps : ∀ n, ∃ steps, parseSteps env id k uj.container n (cmds.map .command) = .ok steps := by
        clear a2 hus' b2
        induction cmds with
        | nil => exact fun n => ⟨[], rfl⟩
        | cons c cs ih =>
          intro n
          obtain ⟨steps, hs⟩ := ih (fun c' hc' => a3 c' (by simp [hc'])) (n + 1)
          have ht := a3 c (by simp)
          obtain ⟨t, ht⟩ := Option.isSome_iff_exists.1 ht
          simp [parseSteps, ht, hs]
      obtain ⟨steps, hs⟩ := hps 0
      rw [← hus'] at hs
      simp [parseJob, hus, hs]
    obtain ⟨m, hm⟩ := this
    exact ⟨_, by simp only [parseWorkflow, hm]; rfl⟩

/-- **C39** What a parse error says: it names an action that nobody provides, or is the error of the action
itself, or says that an expanded step is again an action, or that a timeout cannot be read. -/
theorem C39_parse_error (env : ParseEnv) (id : Id) (w : UserWorkflow) (e : Error)
    (h : parseWorkflow env id w = .error e) :
    ∃ k uj, (k, uj) ∈ w.jobs ∧
      ((∃ a, .action a ∈ uj.steps ∧ (∀ act, ¬ Provides env a act) ∧
          e = .workflowConfigError ("Action `" ++ a.uses ++ "` is not found")) ∨
       (∃ a act, .action a ∈ uj.steps ∧ Provides env a act ∧ act a = .error e) ∨
       ∃ r : UserActionStep → ActionSteps,
        (∀ a, .action a ∈ uj.steps → ∃ act, Provides env a act ∧ act a = .ok (r a)) ∧
        ((e = .unsupportedFeature "Only command step is supported" ∧ ∃ a, .action a ∈ expansion r uj.steps) ∨
         (e = .workflowConfigError "Invalid timeout format. The format should like `60m` or `1h`." ∧
          ∃ c, .command c ∈ expansion r uj.steps ∧ env.durations (c.timeout.getD "60m") = none))) := by
  simp only [parseWorkflow] at h
  split at h
  · rename_i e' he
    cases h
    obtain ⟨k, uj, hm, hj⟩ := parseJobs_error_mem he
    refine ⟨k, uj, hm, ?_⟩
    simp only [parseJob] at hj
    split at hj
    · rename_i e1 h1
      cases hj
      obtain ⟨a, ha, hta⟩ := normalizeLoop_error_mem h1
      by_cases hp : ∃ act, Provides env a act
      · obtain ⟨act, hact⟩ := hp
        exact .inr (.inl ⟨a, act, ha, hact, by rw [← tryNormalizeAction_of_provides hact, hta]⟩)
      · have hn : ∀ act, ¬ Provides env a act := fun act ha => hp ⟨act, ha⟩
        rw [tryNormalizeAction_none hn] at hta
        cases hta
        exact .inl ⟨a, ha, hn, rfl⟩
    · rename_i us hus
      split at hj
      · rename_i e1 h1
        cases hj
        obtain ⟨b1, b2⟩ := normalizeLoop_ok hus
        simp only [List.nil_append, List.append_nil] at b2
        refine .inr (.inr ⟨resolveD env, ?_, ?_⟩)
        · intro a ha
          have := b1 a ha
          by_cases hpv : ∃ act, Provides env a act
          · obtain ⟨act, hact⟩ := hpv
            exact ⟨act, hact, by rw [← tryNormalizeAction_of_provides hact, this]⟩
          · rw [tryNormalizeAction_none (fun act hact => hpv ⟨act, hact⟩)] at this
            simp at this
        · have := parseSteps_error h1
          rw [b2] at this
          exact this
      · simp at hj
  · simp at h

/-- **C39** (with C34) Building a workflow from a decoded configuration: an ill-formed configuration is rejected
before anything is parsed, a well-formed one gives exactly what parsing gives. -/
theorem C39_build (env : ParseEnv) (id : Id) (w : UserWorkflow) :
    (WellFormed w → buildWorkflow env id w = parseWorkflow env id w) ∧
    (¬ WellFormed w → ∃ m, buildWorkflow env id w = .error (.workflowConfigError m)) := by
  have hv := C34_validator_decision w
  constructor
  · intro h
    simp [buildWorkflow, hv.1.2 h]
  · intro h
    rcases hw : w.validate with e | u
    · obtain ⟨m, rfl⟩ := hv.2.2 e hw
      exact ⟨m, by simp [buildWorkflow, hw]⟩
    · exact absurd (hv.1.1 hw) h

/-! ## Witnesses -/

namespace ParserEx
/-- an action with pre and post steps -/
def cacheAction : Action := fun a => .ok
  { pre := some (.command { run := "pre " ++ a.uses }), run := .command { run := "body " ++ a.uses },
    post := some (.command { run := "post " ++ a.uses }) }
/-- `cache` is registered; one plugin fails, the next offers every action -/
def env : ParseEnv :=
  { actions := [("cache", cacheAction)],
    plugins := [{ onResolveDynamicAction := fun _ => .error (.error "no") },
      { onResolveDynamicAction := fun a => .ok (if a.uses = "git" then some cacheAction else none) }],
    durations := fun t => if t = "60m" then some 3600 else if t = "1s" then some 1 else none }
/-- three configured steps, two of them actions -/
def uj : UserJob :=
  { container := some (.name "alpine"),
    steps := [.action { uses := "cache" }, .command { run := "make", timeout := some "1s" },
      .action { uses := "git" }] }
/-- one job -/
def w : UserWorkflow := { jobs := [("build", uj)] }
end ParserEx

example : UniqueKeys ParserEx.w ∧ (∃ wf, parseWorkflow ParserEx.env "w" ParserEx.w = .ok wf ∧
    wf.jobs.map (fun e => (e.1, e.2.steps.map (fun s => (s.id.number, s.run, s.timeout)))) =
      [("build", [(0, "pre cache", 3600), (1, "pre git", 3600), (2, "body cache", 3600), (3, "make", 1),
        (4, "body git", 3600), (5, "post git", 3600), (6, "post cache", 3600)])]) := by
  refine ⟨by decide, _, rfl, by decide⟩

example : tryNormalizeAction ParserEx.env { uses := "nope" } =
    .error (.workflowConfigError "Action `nope` is not found") := by decide

example : ∃ act, Provides ParserEx.env { uses := "git" } act :=
  ⟨_, .dynamic [_] _ [] ParserEx.cacheAction (by decide) rfl
    (by intro q hq act; simp at hq; subst hq; simp) rfl⟩

example : buildWorkflow ParserEx.env "w" ConfigEx.pureCycle =
    .error (.workflowConfigError "Cannot have all jobs has dependencies") := by decide

example : parseWorkflow ParserEx.env "w" { jobs := [("j", { steps := [.command { run := "x", timeout := some "?" }] })] } =
    .error (.workflowConfigError "Invalid timeout format. The format should like `60m` or `1h`.") := by decide

end AstroRun
