import Verif.Spec.Config
import Verif.Lemmas.Map

/-! # C34, C35: the configuration validator -/

namespace AstroRun
open Spec

theorem firstMissing_none {all : List (Id × UserJob)} {ds : List String} :
    firstMissing all ds = none ↔ ∀ d ∈ ds, ∃ j, (d, j) ∈ all := by
  induction ds with
  | nil => simp [firstMissing]
  | cons d ds ih =>
    by_cases h : AMap.contains all d = true
    · have : ∃ j, (d, j) ∈ all := by
        have := (AMap.contains_iff all d).1 h
        simpa [AMap.keys] using this
      simp [firstMissing, h, ih, this]
    · have : ¬ ∃ j, (d, j) ∈ all := by
        intro ⟨j, hj⟩
        exact h ((AMap.contains_iff all d).2 (by simp [AMap.keys]; exact ⟨j, hj⟩))
      simp [firstMissing, h, this]

theorem validateJobs_ok {all l : List (Id × UserJob)} {b c : Bool} :
    validateJobs all l b = .ok c ↔
      ((∀ k j, (k, j) ∈ l → j.steps ≠ [] ∧ ∀ d ∈ deps j, ∃ j', (d, j') ∈ all) ∧
        c = (b && l.all (fun e => !(deps e.2).isEmpty))) := by
  induction l generalizing b with
  | nil => simp [validateJobs]; exact eq_comm
  | cons e l ih =>
    obtain ⟨k, j⟩ := e
    have hsplit : ∀ P : Id → UserJob → Prop,
        (∀ k' j', (k', j') ∈ (k, j) :: l → P k' j') ↔ (P k j ∧ ∀ k' j', (k', j') ∈ l → P k' j') := by
      intro P
      constructor
      · intro h
        exact ⟨h k j (by simp), fun k' j' hm => h k' j' (by simp [hm])⟩
      · rintro ⟨h1, h2⟩ k' j' hm
        rcases List.mem_cons.1 hm with h | h
        · cases h; exact h1
        · exact h2 k' j' h
    rw [hsplit]
    rcases hd : j.dependsOn with _ | ds
    · have hdeps : deps j = [] := by simp [deps, hd]
      by_cases hs : j.steps = []
      · simp [validateJobs, hd, hs]
      · simp only [validateJobs, hd, List.isEmpty_iff, hs, if_false, ih]
        simp [hdeps, hs]
    · have hdeps : deps j = ds := by simp [deps, hd]
      by_cases he : ds = []
      · by_cases hs : j.steps = []
        · simp [validateJobs, hd, hs, he]
        · simp [validateJobs, hd, hs, he, ih, hdeps]
      · rcases hm : firstMissing all ds with _ | d
        · have hm' := firstMissing_none.1 hm
          by_cases hs : j.steps = []
          · simp [validateJobs, hd, hs, he, hm]
          · simp only [validateJobs, hd, List.isEmpty_iff, he, if_false, hm, hs, ih, hdeps]
            simp only [ne_eq, not_false_eq_true, true_and, List.all_cons, hdeps]
            have : (!ds.isEmpty) = true := by simp [he]
            simp only [this, Bool.true_and]
            constructor
            · rintro ⟨h1, h2⟩; exact ⟨⟨⟨hs, hm'⟩, h1⟩, h2⟩
            · rintro ⟨⟨_, h1⟩, h2⟩; exact ⟨h1, h2⟩
        · have : ¬ ∀ d ∈ ds, ∃ j, (d, j) ∈ all := by
            intro h; rw [firstMissing_none.2 h] at hm; simp at hm
          simp only [validateJobs, hd, List.isEmpty_iff, he, if_false, hm, hdeps]
          simp only [reduceCtorEq, false_iff]
          rintro ⟨⟨⟨_, h1⟩, _⟩, _⟩
          exact this h1

/-- **C34** The validator accepts exactly the well-formed configurations, whatever the order in which the
job map is iterated, and rejects all others with a configuration error. -/
theorem C34_validator_decision (w : UserWorkflow) :
    (w.validate = .ok () ↔ WellFormed w) ∧
    (∀ jobs', jobs'.Perm w.jobs → (({ w with jobs := jobs' } : UserWorkflow).validate = .ok () ↔
      w.validate = .ok ())) ∧
    (∀ e, w.validate = .error e → ∃ m, e = .workflowConfigError m) := by
  have key : ∀ w : UserWorkflow, w.validate = .ok () ↔ WellFormed w := by
    intro w
    unfold UserWorkflow.validate
    by_cases h0 : w.jobs = []
    · simp only [h0, List.isEmpty_nil, if_true, reduceCtorEq, false_iff]
      exact fun h => h.someJob h0
    · simp only [List.isEmpty_iff, h0, if_false]
      constructor
      · intro h
        split at h
        · simp at h
        · simp at h
        · rename_i hv
          have := validateJobs_ok.1 hv
          refine ⟨h0, fun k j hm => (this.1 k j hm).1, fun k j hm => (this.1 k j hm).2, ?_⟩
          have h2 := this.2
          simp only [Bool.true_and] at h2
          have h3 := List.all_eq_false.1 h2.symm
          obtain ⟨e, he, he2⟩ := h3
          exact ⟨e.1, e.2, he, by simpa using he2⟩
      · intro h
        obtain ⟨k, j, hm, hr⟩ := h.root
        have : validateJobs w.jobs w.jobs true = .ok false := by
          rw [validateJobs_ok]
          refine ⟨fun k j hm => ⟨h.steps k j hm, h.defined k j hm⟩, ?_⟩
          have : w.jobs.all (fun e => !(deps e.2).isEmpty) = false := by
            rw [List.all_eq_false]
            exact ⟨_, hm, by simp [hr]⟩
          simp [this]
        simp [this]
  refine ⟨key w, ?_, ?_⟩
  · intro jobs' hp
    rw [key, key]
    constructor
    · intro h
      exact ⟨fun h0 => h.someJob (by simp only [h0] at hp; exact hp.eq_nil),
        fun k j hm => h.steps k j (hp.mem_iff.2 hm),
        fun k j hm d hd => by
          obtain ⟨j', hj'⟩ := h.defined k j (hp.mem_iff.2 hm) d hd
          exact ⟨j', hp.mem_iff.1 hj'⟩,
        by obtain ⟨k, j, hm, hr⟩ := h.root; exact ⟨k, j, hp.mem_iff.1 hm, hr⟩⟩
    · intro h
      exact ⟨fun h0 => h.someJob (by simp only at h0; rw [h0] at hp; exact hp.symm.eq_nil),
        fun k j hm => h.steps k j (hp.mem_iff.1 hm),
        fun k j hm d hd => by
          obtain ⟨j', hj'⟩ := h.defined k j (hp.mem_iff.1 hm) d hd
          exact ⟨j', hp.mem_iff.2 hj'⟩,
        by obtain ⟨k, j, hm, hr⟩ := h.root; exact ⟨k, j, hp.mem_iff.2 hm, hr⟩⟩
  · intro e he
    have hv : ∀ l b, validateJobs w.jobs l b = .error e → ∃ m, e = .workflowConfigError m := by
      intro l
      induction l with
      | nil => simp [validateJobs]
      | cons x l ih =>
        intro b hb
        obtain ⟨k, j⟩ := x
        simp only [validateJobs] at hb
        split at hb
        · rename_i e1 h1
          split at h1
          · split at h1
            · simp at h1
            · split at h1
              · cases h1; cases hb; exact ⟨_, rfl⟩
              · simp at h1
          · simp at h1
        · split at hb
          · cases hb; exact ⟨_, rfl⟩
          · exact ih _ hb
    unfold UserWorkflow.validate at he
    split at he
    · cases he; exact ⟨_, rfl⟩
    · split at he
      · rename_i h; cases he; exact hv _ _ h
      · cases he; exact ⟨_, rfl⟩
      · simp at he

namespace ConfigEx
/-- A job running one command, after the given jobs. -/
def job (ds : Option (List String)) : UserJob :=
  { steps := [.command { run := "true" }], dependsOn := ds }
/-- build; test → build; deploy → test, build -/
def good : UserWorkflow :=
  { jobs := [("build", job none), ("test", job (some ["build"])), ("deploy", job (some ["test", "build"]))] }
/-- a; b → c; c → b -/
def cyclic : UserWorkflow :=
  { jobs := [("a", job none), ("b", job (some ["c"])), ("c", job (some ["b"]))] }
/-- two jobs waiting for each other -/
def pureCycle : UserWorkflow := { jobs := [("b", job (some ["c"])), ("c", job (some ["b"]))] }
end ConfigEx

example : ConfigEx.good.validate = .ok () := by decide
example : ConfigEx.pureCycle.validate = .error (.workflowConfigError "Cannot have all jobs has dependencies") := by
  decide
example : ({ jobs := [("x", ConfigEx.job (some ["y"]))] } : UserWorkflow).validate =
    .error (.workflowConfigError "Job x depends on job y, but job y is not defined") := by decide

/-- **C35** (partial) A cyclic configuration is rejected when every job has a dependency (so in particular
when every job lies on a cycle).  Missing for the full claim: cycles next to a job without dependencies,
which are accepted, see `C35_refuted`. -/
theorem C35_all_dependent_rejected_partial (w : UserWorkflow)
    (h : ∀ k j, (k, j) ∈ w.jobs → ∃ b, WaitsFor w k b) (hu : (w.jobs.map Prod.fst).Nodup) :
    w.validate ≠ .ok () := by
  intro hv
  obtain ⟨k, j, hm, hr⟩ := ((C34_validator_decision w).1.1 hv).root
  obtain ⟨b, j', hm', hb⟩ := h k j hm
  have h1 := AMap.get?_of_mem (m := w.jobs) hu hm
  have h2 := AMap.get?_of_mem (m := w.jobs) hu hm'
  rw [h1] at h2
  cases h2
  simp [hr] at hb

example : (∀ k j, (k, j) ∈ ConfigEx.pureCycle.jobs → ∃ b, WaitsFor ConfigEx.pureCycle k b) ∧
    (ConfigEx.pureCycle.jobs.map Prod.fst).Nodup := by
  refine ⟨?_, by decide⟩
  intro k j hm
  simp only [ConfigEx.pureCycle, List.mem_cons, Prod.mk.injEq, List.not_mem_nil, or_false] at hm
  rcases hm with ⟨rfl, rfl⟩ | ⟨rfl, rfl⟩
  · exact ⟨"c", _, by simp [ConfigEx.pureCycle]; rfl, by decide⟩
  · exact ⟨"b", _, by simp [ConfigEx.pureCycle]; rfl, by decide⟩

/-- **C35 is false of the code**: a configuration with a dependency cycle is accepted. -/
theorem C35_refuted : ∃ w : UserWorkflow, HasCycle w ∧ w.validate = .ok () := by
  refine ⟨ConfigEx.cyclic, ⟨"b", ?_⟩, by decide⟩
  refine .tail (.single (b := "c") ?_) ?_
  · exact ⟨ConfigEx.job (some ["c"]), by simp [ConfigEx.cyclic], by decide⟩
  · exact ⟨ConfigEx.job (some ["b"]), by simp [ConfigEx.cyclic], by decide⟩

end AstroRun
