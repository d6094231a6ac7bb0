import Verif.Lemmas.WorkflowLive
import Verif.Lemmas.WorkflowTerm
import Verif.Props.Workflow
import Mathlib.Data.Fintype.Card
import Mathlib.Data.Fintype.Sets
import Mathlib.Data.Fintype.EquivFin

/-! # The workflow machine: where it can come to rest -/

namespace AstroRun
open Spec

/-- The only possible moves are to begin job runs with keys in `B`. -/
def StuckUpTo (B : Id → Prop) (m : WfM) : Prop :=
  ∀ a m', m.step a = some m' → ∃ i env t, a = .begin i env ∧ m.tasks[i]? = some t ∧ B t.key

/-- Induction over the dependency order. -/
theorem deps_induct {wf : Workflow} (hd : DepsDefined wf) (ha : Acyclic wf) {P : Id → Prop}
    (h : ∀ k j, (k, j) ∈ wf.jobs → (∀ d, DependsOn wf k d → P d) → P k) :
    ∀ k j, (k, j) ∈ wf.jobs → P k := by
  let S := { k // k ∈ wf.jobs.map Prod.fst }
  let r : S → S → Prop := fun a b => Relation.TransGen (DependsOn wf) b.1 a.1
  have : IsTrans S r := ⟨fun a b c h1 h2 => h2.trans h1⟩
  have : Std.Irrefl r := ⟨fun a h => ha _ h⟩
  have : Finite S := @Finite.of_fintype _ (List.Subtype.fintype (wf.jobs.map Prod.fst))
  have hwf : WellFounded r := Finite.wellFounded_of_trans_of_irrefl r
  have key : ∀ s : S, P s.1 := by
    intro s
    induction s using hwf.induction with
    | _ s ih =>
      obtain ⟨⟨k, j⟩, hj, hk⟩ := List.mem_map.1 s.2
      simp only at hk
      refine h s.1 j (hk ▸ hj) fun d hdep => ?_
      obtain ⟨j0, hj0, hd0⟩ := hdep
      obtain ⟨j', hj'⟩ := hd _ _ hj0 d hd0
      exact ih ⟨d, List.mem_map.2 ⟨_, hj', rfl⟩⟩ (.single ⟨j0, hj0, hd0⟩)
  intro k j hj
  exact key ⟨k, List.mem_map.2 ⟨_, hj, rfl⟩⟩

/-- When the workflow waits and nothing but `B` could begin, every job that does not need `B` has delivered. -/
theorem stuck_received {wf : Workflow} (hu : UniqueJobs wf) (ho : OwnIds wf) (hd : DepsDefined wf)
    (ha : Acyclic wf) {acts : List WfAct} {m : WfM} (h : WfReach wf acts m) (hk : HooksKeepJob wf acts)
    (hpc : m.pc = .loop) {B : Id → Prop} (hst : StuckUpTo B m) :
    ∀ k j, (k, j) ∈ wf.jobs → (∀ b, B b → ¬ Relation.ReflTransGen (DependsOn wf) k b) →
      k ∈ AMap.keys m.results := by
  have inv := wfInv_reach h
  have live := live_reach ho h hk
  have hnr : ∀ r, m.pc ≠ .returned r := by simp [hpc]
  have hchan : m.chan = [] := by
    cases hc : m.chan with
    | nil => rfl
    | cons x xs =>
      obtain ⟨_, _, _, h1, _⟩ := hst (.recv 0) _ (by simp only [WfM.step, hpc, hc]; rfl)
      simp at h1
  have htask : ∀ (i : Nat) (t : WfTask), m.tasks[i]? = some t → t.pc.alive = true → B t.key := by
    rintro i ⟨k, job, pc⟩ ht hal
    cases pc with
    | spawned =>
      obtain ⟨i', env, t, h1, h2, h3⟩ := hst (.begin i default) _ (by simp only [WfM.step, ht]; rfl)
      cases h1
      rw [ht] at h2; cases h2
      exact h3
    | running todo r =>
      exfalso
      have : ∃ m', m.step (.emit i) = some m' := by
        cases todo with
        | nil => exact ⟨_, by simp only [WfM.step, ht]; rfl⟩
        | cons e todo =>
          by_cases hc : canIssue m.registry e = true
          · exact ⟨_, by simp only [WfM.step, ht, hc, if_true]; rfl⟩
          · exact ⟨_, by simp only [WfM.step, ht, hc]; rfl⟩
      obtain ⟨m', hm'⟩ := this
      obtain ⟨_, _, _, h1, _⟩ := hst _ _ hm'
      simp at h1
    | sending r =>
      exfalso
      have : ∃ m', m.step (.send i) = some m' :=
        ⟨_, by simp only [WfM.step, ht, hpc, hchan]; rw [if_pos (by simp [chanCap])]⟩
      obtain ⟨m', hm'⟩ := this
      obtain ⟨_, _, _, h1, _⟩ := hst _ _ hm'
      simp at h1
    | done => simp [TaskPc.alive] at hal
    | panicked => simp [TaskPc.alive] at hal
  apply deps_induct hd ha (P := fun k => (∀ b, B b → ¬ Relation.ReflTransGen (DependsOn wf) k b) →
    k ∈ AMap.keys m.results)
  intro k j hj ih hb
  have hrun : ∃ i, IsRunOf m i k := by
    refine (C05_dependents_run_anyway wf hu acts m h).1 hpc k j hj fun d hdj => ?_
    have hdep : DependsOn wf k d := ⟨j, hj, hdj⟩
    exact (inv.keys d).1 (ih d hdep fun b hB hr => hb b hB (Relation.ReflTransGen.head hdep hr))
  obtain ⟨i, t, ht, rfl⟩ := hrun
  rcases live.live hnr i t ht with h | ⟨x, hx, _⟩ | ⟨j', u, h1, h2, h3⟩
  · exact h
  · rw [hchan] at hx; simp at hx
  · have := htask j' u h1 h3
    rw [h2] at this
    exact absurd .refl (hb _ this)

/-- What a move leaves in place. -/
theorem step_mono {m m' : WfM} {a : WfAct} (hs : m.step a = some m') :
    (∀ (i : Nat) (t : WfTask), m.tasks[i]? = some t →
      ∃ t', m'.tasks[i]? = some t' ∧ t'.key = t.key ∧ t'.job = t.job ∧
        (t'.pc = t.pc ∨ t.pc ≠ .spawned ∨ ∃ env, a = .begin i env)) ∧
    (∀ k, k ∈ AMap.keys m.results → k ∈ AMap.keys m'.results) := by
  have hadd : ∀ (l : List WfTask) (i : Nat) (t : WfTask), m.tasks[i]? = some t →
      (m.tasks ++ l)[i]? = some t := by
    intro l i t ht
    rw [List.getElem?_append_left (List.getElem?_eq_some_iff.1 ht).1, ht]
  have hset : ∀ (j : Nat) (u : WfTask) (pc : TaskPc), m.tasks[j]? = some u →
      (u.pc ≠ .spawned ∨ ∃ env, a = .begin j env) → ∀ (i : Nat) (t : WfTask), m.tasks[i]? = some t →
      ∃ t', (m.setTask j pc).tasks[i]? = some t' ∧ t'.key = t.key ∧ t'.job = t.job ∧
        (t'.pc = t.pc ∨ t.pc ≠ .spawned ∨ ∃ env, a = .begin i env) := by
    intro j u pc hu hp i t ht
    by_cases hij : j = i
    · subst hij
      rw [ht] at hu; cases hu
      exact ⟨_, setTask_self ht, rfl, rfl, .inr hp⟩
    · exact ⟨t, by rw [setTask_other hij, ht], rfl, rfl, .inl rfl⟩
  have hrefl : ∀ (i : Nat) (t : WfTask), m.tasks[i]? = some t →
      ∃ t', m.tasks[i]? = some t' ∧ t'.key = t.key ∧ t'.job = t.job ∧
        (t'.pc = t.pc ∨ t.pc ≠ .spawned ∨ ∃ env, a = .begin i env) :=
    fun i t ht => ⟨t, ht, rfl, rfl, .inl rfl⟩
  cases a <;> simp only [WfM.step] at hs
  case check b now =>
    split at hs
    · split at hs <;> (cases hs; exact ⟨hrefl, fun _ h => h⟩)
    · simp at hs
  case spawn =>
    split at hs
    · cases hs; exact ⟨hrefl, fun _ h => h⟩
    · cases hs
      unfold WfM.setupJob
      split
      · exact ⟨fun i t ht => ⟨t, hadd _ i t ht, rfl, rfl, .inl rfl⟩, fun _ h => h⟩
      · exact ⟨hrefl, fun _ h => h⟩
    · simp at hs
  case recv now =>
    split at hs
    · rename_i msg chan hpc hc
      cases hs
      unfold WfM.handle
      simp only
      split
      · exact ⟨hrefl, fun k hk => (AMap.mem_keys_insert _ _ _ _).2 (.inr hk)⟩
      · rw [rescan_eq]
        exact ⟨fun i t ht => ⟨t, hadd _ i t ht, rfl, rfl, .inl rfl⟩,
          fun k hk => (AMap.mem_keys_insert _ _ _ _).2 (.inr hk)⟩
    · simp at hs
  case announce => split at hs <;> simp at hs; subst hs; exact ⟨hrefl, fun _ h => h⟩
  case complete => split at hs <;> simp at hs; subst hs; exact ⟨hrefl, fun _ h => h⟩
  case begin i env =>
    split at hs
    · rename_i k job ht
      cases hs; exact ⟨hset i _ _ ht (.inr ⟨env, rfl⟩), fun _ h => h⟩
    · simp at hs
  case emit i =>
    split at hs
    · rename_i k job r ht
      cases hs; exact ⟨hset i _ _ ht (.inl (by simp)), fun _ h => h⟩
    · rename_i k job e todo r ht
      split at hs <;> (cases hs; exact ⟨hset i _ _ ht (.inl (by simp)), fun _ h => h⟩)
    · simp at hs
  case send i =>
    split at hs
    · rename_i k job r ht
      split at hs
      · cases hs; exact ⟨hset i _ _ ht (.inl (by simp)), fun _ h => h⟩
      · split at hs
        · cases hs; exact ⟨hset i _ _ ht (.inl (by simp)), fun _ h => h⟩
        · simp at hs
    · simp at hs

/-- A move that does not begin a run with key in `B`. -/
def Avoids (B : Id → Prop) (m : WfM) (a : WfAct) : Prop :=
  ∀ i env t, a = .begin i env → m.tasks[i]? = some t → ¬ B t.key

/-- Keep moving, never beginning `B`, until nothing else is possible. -/
theorem run_until_stuck {wf : Workflow} (ho : OwnIds wf) (B : Id → Prop) (P : WfM → Prop)
    (hP : ∀ acts m a m', WfReach wf acts m → P m → Avoids B m a → m.step a = some m' → P m') :
    ∀ (m : WfM) (acts : List WfAct), WfReach wf acts m → HooksKeepJob wf acts → P m →
      ∃ more m', WfReach wf (acts ++ more) m' ∧ HooksKeepJob wf (acts ++ more) ∧ P m' ∧ StuckUpTo B m' := by
  intro m
  induction m using step_wf.induction with
  | _ m ih =>
    intro acts h hk hp
    by_cases hst : StuckUpTo B m
    · exact ⟨[], m, by simpa using h, by simpa using hk, hp, hst⟩
    · -- some allowed move is possible; make `begin` harmless
      have : ∃ a m', m.step a = some m' ∧ Avoids B m a ∧ ActKeeps wf a := by
        unfold StuckUpTo at hst
        simp only [not_forall] at hst
        obtain ⟨a, m', hs, hn⟩ := hst
        by_cases hb : ∃ i env, a = .begin i env
        · obtain ⟨i, env, rfl⟩ := hb
          simp only [WfM.step] at hs
          split at hs
          · rename_i k job ht
            refine ⟨.begin i default, _, by simp only [WfM.step, ht]; rfl, ?_, ?_⟩
            · intro i' env' t he ht' hB
              cases he
              exact hn ⟨i, env, t, rfl, ht', hB⟩
            · intro i' env' he k' j' hj n s hs'
              cases he
              exact ho.2 k' j' hj s (List.mem_of_getElem? hs')
          · simp at hs
        · refine ⟨a, m', hs, fun i env t he => absurd ⟨i, env, he⟩ hb, fun i env he => absurd ⟨i, env, he⟩ hb⟩
      obtain ⟨a, m', hs, hav, hke⟩ := this
      have h' : WfReach wf (acts ++ [a]) m' := runs_snoc.2 ⟨m, h, hs⟩
      have hk' : HooksKeepJob wf (acts ++ [a]) := by
        intro i env he
        rcases List.mem_append.1 he with he | he
        · exact hk i env he
        · simp at he; exact hke i env he.symm
      obtain ⟨more, m'', h1, h2, h3, h4⟩ := ih m' ⟨a, hs⟩ (acts ++ [a]) h' hk' (hP acts m a m' h hp hav hs)
      exact ⟨a :: more, m'', by simpa using h1, by simpa using h2, h3, h4⟩

/-- No run with key in `B` has begun. -/
def Idle (B : Id → Prop) (m : WfM) : Prop :=
  ∀ (i : Nat) (t : WfTask), m.tasks[i]? = some t → B t.key → t.pc = .spawned

theorem Idle.not_received {wf : Workflow} {m : WfM} {B : Id → Prop} (hi : WfInv wf m) (h : Idle B m) {k : Id}
    (hk : B k) : k ∉ AMap.keys m.results := by
  intro hm
  obtain ⟨msg, hm', rfl⟩ := (hi.keys k).1 hm
  obtain ⟨t, h1, h2, h3, _⟩ := hi.recd msg hm'
  have := h _ t h1 (h2 ▸ hk)
  rw [h3] at this; simp at this

/-- A new task is fresh. -/
theorem new_task_spawned {m m' : WfM} {a : WfAct} (hs : m.step a = some m') {i : Nat} {t : WfTask}
    (ht : m'.tasks[i]? = some t) (hn : m.tasks[i]? = none) : t.pc = .spawned := by
  have hadd : ∀ (es : List (Id × Job)),
      (m.tasks ++ es.map fun e => ({ key := e.1, job := e.2 } : WfTask))[i]? = some t → t.pc = .spawned := by
    intro es ht
    have hlen : m.tasks.length ≤ i := List.getElem?_eq_none_iff.1 hn
    rw [List.getElem?_append_right hlen, List.getElem?_map] at ht
    cases he : es[i - m.tasks.length]? with
    | none => simp [he] at ht
    | some e => simp [he] at ht; subst ht; rfl
  have hsame : m'.tasks.length = m.tasks.length → t.pc = .spawned := by
    intro hl
    have h1 := (List.getElem?_eq_some_iff.1 ht).1
    have h2 := List.getElem?_eq_none_iff.1 hn
    omega
  have hset : ∀ j pc, (m.setTask j pc).tasks.length = m.tasks.length := by simp [WfM.setTask]
  cases a <;> simp only [WfM.step] at hs
  case check b now =>
    split at hs
    · split at hs <;> (cases hs; exact hsame rfl)
    · simp at hs
  case spawn =>
    split at hs
    · cases hs; exact hsame rfl
    · rename_i e rest hpc
      cases hs
      simp only [WfM.setupJob] at ht
      split at ht
      · exact hadd [e] ht
      · rw [hn] at ht; simp at ht
    · simp at hs
  case recv now =>
    split at hs
    · rename_i msg chan hpc hc
      cases hs
      simp only [WfM.handle] at ht
      split at ht
      · have ht' : m.tasks[i]? = some t := ht
        rw [hn] at ht'; simp at ht'
      · rw [rescan_eq] at ht
        exact hadd _ ht
    · simp at hs
  case announce => split at hs <;> simp at hs; subst hs; exact hsame rfl
  case complete => split at hs <;> simp at hs; subst hs; exact hsame rfl
  case begin i env => split at hs <;> simp at hs; subst hs; exact hsame (hset _ _)
  case emit i =>
    split at hs
    · simp at hs; subst hs; exact hsame (hset _ _)
    · split at hs <;> (simp at hs; subst hs; exact hsame (hset _ _))
    · simp at hs
  case send i =>
    split at hs
    · split at hs
      · simp at hs; subst hs; exact hsame (hset _ _)
      · split at hs
        · simp at hs; subst hs; exact hsame (hset _ _)
        · simp at hs
    · simp at hs

theorem Idle.step {m m' : WfM} {a : WfAct} {B : Id → Prop} (h : Idle B m) (ha : Avoids B m a)
    (hs : m.step a = some m') : Idle B m' := by
  intro i t ht hB
  cases ho : m.tasks[i]? with
  | none => exact new_task_spawned hs ht ho
  | some u =>
    obtain ⟨t', h1, h2, h3, h4⟩ := (step_mono hs).1 i u ho
    rw [ht] at h1; cases h1
    have hu := h i u ho (h2 ▸ hB)
    rcases h4 with h4 | h4 | ⟨env, h4⟩
    · rw [h4, hu]
    · exact absurd hu h4
    · exact absurd (h2 ▸ hB) (ha i env u h4 ho)

/-- Where the machine can be when only `B` could begin: waiting, or returned. -/
theorem stuck_pc {m : WfM} {B : Id → Prop} (hst : StuckUpTo B m) : m.pc = .loop ∨ ∃ r, m.pc = .returned r := by
  have key : ∀ a m', m.step a = some m' → (∀ i env, a ≠ .begin i env) → False := by
    intro a m' hs hne
    obtain ⟨i, env, _, h1, _⟩ := hst a m' hs
    exact hne i env h1
  rcases hpc : m.pc with _ | rest | _ | t | r | r
  · exfalso
    have : ∃ m', m.step (.check true 0) = some m' := by
      simp only [WfM.step, hpc]; split <;> exact ⟨_, rfl⟩
    obtain ⟨m', h⟩ := this
    exact key _ m' h (by simp)
  · exfalso
    have : ∃ m', m.step .spawn = some m' := by
      cases rest <;> exact ⟨_, by simp only [WfM.step, hpc]; rfl⟩
    obtain ⟨m', h⟩ := this
    exact key _ m' h (by simp)
  · exact .inl rfl
  · exact (key .announce _ (by simp only [WfM.step, hpc]; rfl) (by simp)).elim
  · exact (key .complete _ (by simp only [WfM.step, hpc]; rfl) (by simp)).elim
  · exact .inr ⟨r, rfl⟩

end AstroRun
