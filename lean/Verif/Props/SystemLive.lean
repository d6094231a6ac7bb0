import Verif.Lemmas.SystemLive
import Verif.Props.System

/-! # C83: no run of the engine is held up by the others -/

namespace AstroRun
open Spec

/-- **C83** Whatever the engine has been doing, and wherever the other runs are: every run of a workflow whose dependencies
form no cycle can be brought to its return by moves of its own tasks and the runner working for them alone (nobody else
has to do anything, the clock included). -/
theorem C83_every_run_can_return (acts : List SysAct) (M : Sys) (h : SysReach acts M) (ha : Apart acts)
    (hk : HooksKeepJobs acts) (r : Nat) (ρ : SysRun) (hr : M.runs[r]? = some ρ) (hu : UniqueJobs ρ.wf) (ho : OwnIds ρ.wf)
    (hd : DepsDefined ρ.wf) (hc : Acyclic ρ.wf) (hne : ρ.wf.jobs ≠ []) :
    ∃ more M' ρ' res, (∀ a ∈ more, ofRun r a) ∧ SysReach (acts ++ more) M' ∧ Apart (acts ++ more) ∧
      HooksKeepJobs (acts ++ more) ∧ M'.runs[r]? = some ρ' ∧ ρ'.pc = .returned res :=
  can_return h ha hk hr hu ho hd hc hne

/-- **C83** Hence a run that none of its own moves can take further has returned. -/
theorem C83_stuck_means_returned (acts : List SysAct) (M : Sys) (h : SysReach acts M) (ha : Apart acts)
    (hk : HooksKeepJobs acts) (r : Nat) (ρ : SysRun) (hr : M.runs[r]? = some ρ) (hu : UniqueJobs ρ.wf) (ho : OwnIds ρ.wf)
    (hd : DepsDefined ρ.wf) (hc : Acyclic ρ.wf) (hne : ρ.wf.jobs ≠ [])
    (hs : ∀ a, ofRun r a → M.step a = none) : ∃ res, ρ.pc = .returned res := by
  obtain ⟨more, M', ρ', res, h1, h2, _, _, h5, h6⟩ := C83_every_run_can_return acts M h ha hk r ρ hr hu ho hd hc hne
  cases more with
  | nil =>
    rw [List.append_nil] at h2
    unfold SysReach at h h2
    rw [h] at h2
    cases h2
    rw [hr] at h5
    cases h5
    exact ⟨res, h6⟩
  | cons a more =>
    exfalso
    have h2' : runs Sys.step {} (acts ++ a :: more) = some M' := h2
    have h0 : runs Sys.step {} acts = some M := h
    rw [runs_append, h0] at h2'
    simp [runs, hs a (h1 a (by simp))] at h2'

theorem Spec.Apart.prefix {pre post : List SysAct} (h : Apart (pre ++ post)) : Apart pre := by
  induction post using List.reverseRecOn with
  | nil => simpa using h
  | append_singleton post a ih => exact ih (Apart.init (a := a) (by simpa using h))

/-- In workflows whose jobs all have the id the steps are made to carry, the hooks keep the jobs. -/
theorem hooksKeepJobs_of {acts : List SysAct} (ha : Apart acts)
    (h : ∀ r i b s, SysAct.task r i (.nextStep b s) ∈ acts → ∀ wf, (started acts)[r]? = some wf → ∀ k j, (k, j) ∈ wf.jobs →
      s.id.jobId = j.id) : HooksKeepJobs acts := by
  rintro pre r i b s post rfl M hM ρ t h1 h2
  have inv := engineOk_reach ha.prefix hM
  have hwf : (started pre)[r]? = some ρ.wf := by rw [← inv.wfs]; simp [h1]
  refine h r i b s (by simp) ρ.wf ?_ t.key t.job ((inv.runs r ρ h1).tasks i t h2).2.1
  unfold started at hwf ⊢
  rw [List.filterMap_append, List.getElem?_append_left (List.getElem?_eq_some_iff.1 hwf).1]
  exact hwf

/-! ## Witness: a run held up in the middle of a step while another one works -/

theorem SystemEx.apart_half : Apart SystemEx.half := by
  refine ⟨by decide, ?_, ?_⟩
  · intro wf hwf k j hj
    have : started SystemEx.half = [SystemEx.single "v", SystemEx.single "w"] := rfl
    rw [this] at hwf
    simp only [List.mem_cons, List.not_mem_nil, or_false] at hwf
    rcases hwf with rfl | rfl <;> simp [SystemEx.single] at hj <;> obtain ⟨rfl, rfl⟩ := hj <;> rfl
  · intro r i b s hm wf hwf
    simp [SystemEx.half, SystemEx.open', SystemEx.queue, SystemEx.work] at hm
    rcases hm with ⟨rfl, rfl, rfl, rfl⟩ | ⟨rfl, rfl, rfl, rfl⟩ <;> cases hwf <;> rfl

theorem SystemEx.keeps_half : HooksKeepJobs SystemEx.half := by
  refine hooksKeepJobs_of SystemEx.apart_half ?_
  intro r i b s hm wf hwf k j hj
  simp [SystemEx.half, SystemEx.open', SystemEx.queue, SystemEx.work] at hm
  rcases hm with ⟨rfl, rfl, rfl, rfl⟩ | ⟨rfl, rfl, rfl, rfl⟩ <;> cases hwf <;> simp [SystemEx.single] at hj <;>
    obtain ⟨rfl, rfl⟩ := hj <;> rfl

theorem SystemEx.single_acyclic (w : Id) : Acyclic (SystemEx.single w) := by
  intro a h
  cases Relation.TransGen.head'_iff.1 h with
  | intro b hb =>
    obtain ⟨⟨j, hj, hd⟩, _⟩ := hb
    simp [SystemEx.single] at hj
    obtain ⟨rfl, rfl⟩ := hj
    simp at hd

theorem SystemEx.half_meets : ∃ M ρ, SysReach SystemEx.half M ∧ Apart SystemEx.half ∧ HooksKeepJobs SystemEx.half ∧ M.runs[1]? = some ρ ∧
    (∃ res, ρ.pc = .returned res) = False ∧ UniqueJobs ρ.wf ∧ OwnIds ρ.wf ∧ DepsDefined ρ.wf ∧ Acyclic ρ.wf ∧ ρ.wf.jobs ≠ [] := by
  refine ⟨SystemEx.after SystemEx.half, _, rfl, SystemEx.apart_half, SystemEx.keeps_half, rfl, ?_,
    List.nodup_singleton "a", ⟨?_, ?_⟩, ?_, SystemEx.single_acyclic "w", by decide⟩
  · simp only [eq_iff_iff, iff_false]
    rintro ⟨res, h⟩
    cases h
  · intro k j k' j' h h' _
    have e : ∀ k j, (k, j) ∈ (SystemEx.single "w").jobs → k = "a" := by
      intro k j h; simp [SystemEx.single] at h; exact h.1
    exact (e k j h).trans (e k' j' h').symm
  · intro k j h s hs
    have : (k, j) ∈ (SystemEx.single "w").jobs := h
    simp [SystemEx.single] at this
    obtain ⟨rfl, rfl⟩ := this
    simp at hs
    subst hs
    rfl
  · intro k j h d hd
    have : (k, j) ∈ (SystemEx.single "w").jobs := h
    simp [SystemEx.single] at this
    obtain ⟨rfl, rfl⟩ := this
    simp at hd

end AstroRun
