import Verif.Spec.Parser
import Verif.Lemmas.Map

namespace AstroRun
open Spec

theorem driverResolve_some {ps : List Observer} {a : UserActionStep} {act : Action} :
    driverResolve ps a = some act ↔
      ∃ before p after, ps = before ++ p :: after ∧ (∀ q ∈ before, Declines q a) ∧
        p.onResolveDynamicAction a = .ok (some act) := by
  induction ps with
  | nil => simp [driverResolve]
  | cons o os ih =>
    have declined : (Declines o a) → driverResolve (o :: os) a = driverResolve os a := by
      intro hd
      simp only [driverResolve]
      rcases h : o.onResolveDynamicAction a with e | (_ | x) <;> simp
      exact absurd h (hd x)
    constructor
    · intro h
      by_cases hd : Declines o a
      · rw [declined hd] at h
        obtain ⟨b, p, af, h1, h2, h3⟩ := ih.1 h
        refine ⟨o :: b, p, af, by simp [h1], ?_, h3⟩
        intro q hq
        rcases List.mem_cons.1 hq with rfl | hq
        · exact hd
        · exact h2 q hq
      · obtain ⟨x, hx⟩ : ∃ x, o.onResolveDynamicAction a = .ok (some x) :=
          Classical.byContradiction fun hx => hd fun x h => hx ⟨x, h⟩
        simp only [driverResolve, hx, Option.some.injEq] at h
        subst h
        exact ⟨[], o, os, rfl, by simp, hx⟩
    · rintro ⟨b, p, af, h1, h2, h3⟩
      cases b with
      | nil =>
        simp only [List.nil_append, List.cons.injEq] at h1
        obtain ⟨rfl, rfl⟩ := h1
        simp [driverResolve, h3]
      | cons q b =>
        simp only [List.cons_append, List.cons.injEq] at h1
        obtain ⟨rfl, h1⟩ := h1
        rw [declined (h2 _ (by simp))]
        exact ih.2 ⟨b, p, af, h1, fun q hq => h2 q (by simp [hq]), h3⟩

theorem driverResolve_none {ps : List Observer} {a : UserActionStep} :
    driverResolve ps a = none ↔ ∀ q ∈ ps, Declines q a := by
  induction ps with
  | nil => simp [driverResolve]
  | cons o os ih =>
    simp only [driverResolve, List.mem_cons, forall_eq_or_imp, ← ih]
    rcases h : o.onResolveDynamicAction a with e | (_ | x) <;> simp [Declines, h]

theorem provides_iff {env : ParseEnv} {a : UserActionStep} {act : Action} :
    Provides env a act ↔
      (AMap.get? env.actions a.uses = some act ∨
        (AMap.get? env.actions a.uses = none ∧ driverResolve env.plugins a = some act)) := by
  constructor
  · intro h
    cases h with
    | registered _ h => exact .inl h
    | dynamic b p af _ h1 h2 h3 h4 => exact .inr ⟨h1, driverResolve_some.2 ⟨b, p, af, h2, h3, h4⟩⟩
  · rintro (h | ⟨h1, h2⟩)
    · exact .registered _ h
    · obtain ⟨b, p, af, h3, h4, h5⟩ := driverResolve_some.1 h2
      exact .dynamic b p af _ h1 h3 h4 h5

theorem tryNormalizeAction_of_provides {env : ParseEnv} {a : UserActionStep} {act : Action}
    (h : Provides env a act) : tryNormalizeAction env a = act a := by
  rcases provides_iff.1 h with h | ⟨h1, h2⟩
  · simp only [tryNormalizeAction, actionTryNormalize, h]
    cases act a <;> rfl
  · simp [tryNormalizeAction, actionTryNormalize, h1, h2]

theorem tryNormalizeAction_none {env : ParseEnv} {a : UserActionStep} (h : ∀ act, ¬ Provides env a act) :
    tryNormalizeAction env a = .error (.workflowConfigError ("Action `" ++ a.uses ++ "` is not found")) := by
  have h1 : AMap.get? env.actions a.uses = none := by
    rcases hh : AMap.get? env.actions a.uses with _ | act
    · rfl
    · exact absurd (.registered act hh) (h act)
  have h2 : driverResolve env.plugins a = none := by
    rcases hh : driverResolve env.plugins a with _ | act
    · rfl
    · exact absurd (provides_iff.2 (.inr ⟨h1, hh⟩)) (h act)
  simp [tryNormalizeAction, actionTryNormalize, h1, h2]

/-- Expansion read off the resolution function. -/
def resolveD (env : ParseEnv) (a : UserActionStep) : ActionSteps :=
  match tryNormalizeAction env a with
  | .ok s => s
  | .error _ => default

theorem normalizeLoop_ok {env : ParseEnv} {us pre mid post out : List UserStep}
    (h : normalizeLoop env us pre mid post = .ok out) :
    (∀ a, .action a ∈ us → tryNormalizeAction env a = .ok (resolveD env a)) ∧
      out = (pre ++ us.filterMap (preOf (resolveD env))) ++ (mid ++ us.map (bodyOf (resolveD env))) ++
        ((us.filterMap (postOf (resolveD env))).reverse ++ post) := by
  induction us generalizing pre mid post with
  | nil => simp only [normalizeLoop] at h; cases h; simp
  | cons u us ih =>
    cases u with
    | command c =>
      simp only [normalizeLoop] at h
      obtain ⟨h1, h2⟩ := ih h
      refine ⟨fun a ha => h1 a (by simpa using ha), ?_⟩
      simp [h2, preOf, bodyOf, postOf, List.filterMap_cons]
    | action a =>
      simp only [normalizeLoop] at h
      rcases hr : tryNormalizeAction env a with e | s
      · simp [hr] at h
      · simp only [hr] at h
        obtain ⟨h1, h2⟩ := ih h
        have hs : resolveD env a = s := by simp [resolveD, hr]
        refine ⟨?_, ?_⟩
        · intro b hb
          rcases List.mem_cons.1 hb with hb | hb
          · cases hb; rw [hr, hs]
          · exact h1 b hb
        · rw [h2]
          simp only [List.filterMap_cons, preOf, postOf, bodyOf, List.map_cons, hs]
          rcases s.pre with _ | p <;> rcases s.post with _ | q <;> simp [pushOpt, insertFront]

theorem normalizeLoop_error {env : ParseEnv} {us pre mid post : List UserStep} {a : UserActionStep} {e : Error}
    (ha : .action a ∈ us) (he : tryNormalizeAction env a = .error e) :
    ∃ e', normalizeLoop env us pre mid post = .error e' := by
  rcases h : normalizeLoop env us pre mid post with e' | out
  · exact ⟨e', rfl⟩
  · have := (normalizeLoop_ok h).1 a ha
    rw [he] at this; simp at this

theorem parseSteps_ok {env : ParseEnv} {id key : Id} {jc : Option Container} {us : List UserStep} {n : Nat}
    {steps : List Step} (h : parseSteps env id key jc n us = .ok steps) :
    ∃ cmds : List UserCommandStep, us = cmds.map .command ∧ steps.length = cmds.length ∧
      ∀ (i : Nat) (h1 : i < steps.length) (h2 : i < cmds.length),
        steps[i].id = ⟨id, key, n + i⟩ ∧ StepOf env jc cmds[i] steps[i] := by
  induction us generalizing n steps with
  | nil => simp only [parseSteps] at h; cases h; exact ⟨[], rfl, rfl, by simp⟩
  | cons u us ih =>
    cases u with
    | action a => simp [parseSteps] at h
    | command c =>
      simp only [parseSteps] at h
      split at h
      · simp at h
      · rename_i t ht
        split at h
        · simp at h
        · rename_i rest hrest
          obtain ⟨cmds, h1, h2, h3⟩ := ih hrest
          cases h
          refine ⟨c :: cmds, by simp [h1], by simp [h2], ?_⟩
          intro i hi1 hi2
          cases i with
          | zero =>
            refine ⟨by simp, ?_⟩
            simp only [List.getElem_cons_zero]
            clear ih h3 hrest
            constructor <;> try (simp_all; done)
            · intro x hx
              refine ⟨x.normalize, by simp [hx], ?_⟩
              cases x with
              | options o => exact .options o
              | name n => exact .name n _ rfl rfl rfl
            · intro hc x hx
              refine ⟨x.normalize, by simp [hc, hx], ?_⟩
              cases x with
              | options o => exact .options o
              | name n => exact .name n _ rfl rfl rfl
            · intro t' h'; simpa [h'] using ht
            · intro h'; simpa [h'] using ht
            · cases c.continueOnError <;> simp
          | succ i =>
            simp only [List.length_cons, Nat.add_lt_add_iff_right] at hi1 hi2
            have := h3 i hi1 hi2
            simp only [List.getElem_cons_succ]
            refine ⟨?_, this.2⟩
            rw [this.1]; simp; omega

theorem parseJobs_ok {env : ParseEnv} {id : Id} {l : List (Id × UserJob)} {acc m : AMap Id Job}
    (hn : (AMap.keys l).Nodup) (h : parseJobs env id l acc = .ok m) :
    (∀ k uj, (k, uj) ∈ l → ∃ j, parseJob env id k uj = .ok j ∧ AMap.get? m k = some j) ∧
      (∀ k, k ∉ AMap.keys l → AMap.get? m k = AMap.get? acc k) ∧
      ((AMap.keys acc).Nodup → (AMap.keys m).Nodup) := by
  induction l generalizing acc with
  | nil => simp only [parseJobs] at h; cases h; simp
  | cons e l ih =>
    obtain ⟨k, uj⟩ := e
    simp only [parseJobs] at h
    split at h
    · simp at h
    · rename_i job hj
      have hn' : k ∉ AMap.keys l ∧ (AMap.keys l).Nodup := by simpa [AMap.keys] using hn
      obtain ⟨h1, h2, h3⟩ := ih hn'.2 h
      refine ⟨?_, ?_, ?_⟩
      · intro k' uj' hm
        rcases List.mem_cons.1 hm with hm | hm
        · cases hm
          exact ⟨job, hj, by rw [h2 _ hn'.1]; simp⟩
        · exact h1 k' uj' hm
      · intro k' hk'
        simp only [AMap.keys, List.map_cons, List.mem_cons, not_or] at hk'
        rw [h2 k' hk'.2, AMap.get?_insert]
        simp [Ne.symm hk'.1]
      · exact fun ha => h3 (AMap.nodup_keys_insert ha _ _)

theorem parseJobs_total {env : ParseEnv} {id : Id} {l : List (Id × UserJob)} {acc : AMap Id Job}
    (h : ∀ k uj, (k, uj) ∈ l → ∃ j, parseJob env id k uj = .ok j) : ∃ m, parseJobs env id l acc = .ok m := by
  induction l generalizing acc with
  | nil => exact ⟨acc, rfl⟩
  | cons e l ih =>
    obtain ⟨k, uj⟩ := e
    obtain ⟨j, hj⟩ := h k uj (by simp)
    simp only [parseJobs, hj]
    exact ih (fun k' uj' hm => h k' uj' (by simp [hm]))

theorem parseJobs_error_mem {env : ParseEnv} {id : Id} {l : List (Id × UserJob)} {acc : AMap Id Job} {e : Error}
    (h : parseJobs env id l acc = .error e) : ∃ k uj, (k, uj) ∈ l ∧ parseJob env id k uj = .error e := by
  induction l generalizing acc with
  | nil => simp [parseJobs] at h
  | cons x l ih =>
    obtain ⟨k, uj⟩ := x
    simp only [parseJobs] at h
    split at h
    · rename_i e' he; cases h; exact ⟨k, uj, by simp, he⟩
    · obtain ⟨k', uj', hm, he⟩ := ih h
      exact ⟨k', uj', by simp [hm], he⟩

theorem normalizeLoop_error_mem {env : ParseEnv} {us pre mid post : List UserStep} {e : Error}
    (h : normalizeLoop env us pre mid post = .error e) :
    ∃ a, .action a ∈ us ∧ tryNormalizeAction env a = .error e := by
  induction us generalizing pre mid post with
  | nil => simp [normalizeLoop] at h
  | cons u us ih =>
    cases u with
    | command c =>
      obtain ⟨a, ha, he⟩ := ih h
      exact ⟨a, by simp [ha], he⟩
    | action a =>
      simp only [normalizeLoop] at h
      split at h
      · rename_i e' he; cases h; exact ⟨a, by simp, he⟩
      · obtain ⟨b, hb, he⟩ := ih h
        exact ⟨b, by simp [hb], he⟩

theorem parseSteps_error {env : ParseEnv} {id key : Id} {jc : Option Container} {us : List UserStep} {n : Nat}
    {e : Error} (h : parseSteps env id key jc n us = .error e) :
    (e = .unsupportedFeature "Only command step is supported" ∧ ∃ a, .action a ∈ us) ∨
    (e = .workflowConfigError "Invalid timeout format. The format should like `60m` or `1h`." ∧
      ∃ c, .command c ∈ us ∧ env.durations (c.timeout.getD "60m") = none) := by
  induction us generalizing n with
  | nil => simp [parseSteps] at h
  | cons u us ih =>
    cases u with
    | action a => simp only [parseSteps] at h; cases h; exact .inl ⟨rfl, a, by simp⟩
    | command c =>
      simp only [parseSteps] at h
      split at h
      · rename_i hd; cases h; exact .inr ⟨rfl, c, by simp, hd⟩
      · split at h
        · rename_i e' he
          cases h
          rcases ih he with ⟨h1, a, ha⟩ | ⟨h1, c', hc, hd⟩
          · exact .inl ⟨h1, a, by simp [ha]⟩
          · exact .inr ⟨h1, c', by simp [hc], hd⟩
        · simp at h

end AstroRun
