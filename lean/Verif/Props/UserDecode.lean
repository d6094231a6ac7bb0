import Verif.Spec.UserDecode
import Verif.Spec.Config
import Verif.Props.Wire
import Verif.Lemmas.WireMaps
import Verif.Props.Config
import Verif.Props.Parser
import Verif.Props.Condition

/-! # C79: reading a configuration document -/

namespace AstroRun
open AstroRun.Wire AstroRun.Spec

theorem fld_head (o : List (String × Json)) (k : String) : fld o k = ((o.filter fun e => e.1 = k).head?).map Prod.snd := by
  unfold fld
  congr 1
  induction o with
  | nil => rfl
  | cons e o ih =>
    by_cases h : e.1 = k
    · simp [h]
    · simp [h, ih]

theorem onceEach_iff (ks : List String) (o : List (String × Json)) : onceEach ks (o.map Prod.fst) = true ↔ Once ks o := by
  have key : ∀ k, (o.map Prod.fst).count k = (o.filter fun e => e.1 = k).length := by
    intro k
    induction o with
    | nil => rfl
    | cons e o ih =>
      by_cases h : e.1 = k
      · simp [h, ih]
      · simp [h, ih]
  simp [onceEach, Once, key]

theorem fld_says {ks : List String} {o : List (String × Json)} (h : Once ks o) {k : String} (hk : k ∈ ks) (v : Json) :
    fld o k = some v ↔ Says o k v := by
  have h1 := h k hk
  have hs : Says o k v ↔ (k, v) ∈ o.filter fun e => e.1 = k := by simp [Says]
  rw [hs, fld_head]
  clear hs
  have hk' : ∀ e ∈ o.filter fun e => e.1 = k, e.1 = k := fun e he => by simpa using (List.mem_filter.1 he).2
  revert h1 hk'
  generalize (o.filter fun e => e.1 = k) = l
  intro h1 hk'
  match l, h1 with
  | [], _ => simp
  | [(k', v')], _ =>
    have he : k' = k := hk' (k', v') (by simp)
    subst he
    simp [eq_comm]
  | _ :: _ :: _, h1 => simp at h1

/-- `dec` reads `v` as the relation `R` says. -/
def Reads {α : Type} (dec : Json → Option α) (R : Json → α → Prop) (v : Json) : Prop := ∀ a, dec v = some a ↔ R v a

theorem opt_reads {α : Type} {dec : Json → Option α} {R : Json → α → Prop} {ks : List String} {o : List (String × Json)} (h : Once ks o)
    (k : String) (hk : k ∈ ks) (hr : ∀ v, Reads dec R v) (a : Option α) :
    decOpt dec (fld o k) = some a ↔ Optional o k R a := by
  cases hf : fld o k with
  | none =>
    have hn : ∀ v, ¬ Says o k v := fun v hv => by rw [(fld_says h hk v).2 hv] at hf; cases hf
    cases a with
    | none => simp [decOpt, Optional, hn]
    | some a => simp [decOpt, Optional, hn]
  | some v =>
    have hv := (fld_says h hk v).1 hf
    have only : ∀ u, Says o k u → u = v := fun u hu => by
      rw [(fld_says h hk u).2 hu] at hf; exact Option.some.inj hf
    by_cases hz : v = .null
    · subst hz
      cases a with
      | none => simp only [decOpt, Optional, true_iff]; exact fun u hu => only u hu
      | some a =>
        simp only [decOpt, Optional, Option.some.injEq, reduceCtorEq, false_iff, not_exists, not_and]
        exact fun u hu hu' => absurd (only u hu) hu'
    · have e : decOpt dec (some v) = (dec v).map some := by cases v <;> first | rfl | exact absurd rfl hz
      rw [e]
      cases a with
      | none =>
        simp only [Option.map_eq_some_iff, reduceCtorEq, and_false, exists_false, Optional, false_iff]
        exact fun g => hz (g v hv)
      | some a =>
        simp only [Option.map_eq_some_iff, Option.some.injEq, exists_eq_right, Optional]
        rw [hr v a]
        constructor
        · exact fun g => ⟨v, hv, hz, g⟩
        · rintro ⟨u, hu, -, g⟩
          rw [only u hu] at g
          exact g

theorem req_reads {α : Type} {dec : Json → Option α} {R : Json → α → Prop} {ks : List String} {o : List (String × Json)} (h : Once ks o)
    (k : String) (hk : k ∈ ks) (hr : ∀ v, Reads dec R v) (a : α) :
    (fld o k).bind dec = some a ↔ Required o k R a := by
  simp only [Option.bind_eq_some_iff, Required]
  constructor
  · rintro ⟨v, hv, hd⟩
    have hv := (fld_says h hk v).1 hv
    exact ⟨v, hv, (hr v a).1 hd⟩
  · rintro ⟨v, hv, hd⟩
    exact ⟨v, (fld_says h hk v).2 hv, (hr v a).2 hd⟩

theorem reads_text (v : Json) : Reads decStr Text v := fun a => by cases v <;> simp [decStr, Text]
theorem reads_truth (v : Json) : Reads decBool Truth v := fun a => by cases v <;> simp [decBool, Truth]
theorem reads_env (v : Json) : Reads decEnv MeansEnv v := fun a => by
  constructor
  · intro h
    cases v <;> simp only [decEnv, Option.some.injEq, reduceCtorEq] at h <;> subst h <;> constructor
  · intro h
    cases h <;> rfl

theorem decAll_iff {α : Type} {dec : Json → Option α} : ∀ {l : List Json} {as : List α}, decAll dec l = some as ↔
    as.length = l.length ∧ ∀ (i : Nat) j a, l[i]? = some j → as[i]? = some a → dec j = some a
  | [], as => by
    simp only [decAll, Option.some.injEq, List.length_nil, List.length_eq_zero_iff]
    constructor
    · rintro rfl; simp
    · rintro ⟨rfl, -⟩; rfl
  | j :: l, [] => by
    simp only [decAll, Option.bind_eq_bind, Option.pure_def, Option.bind_eq_some_iff]
    simp
  | j :: l, a :: as => by
    have ih := decAll_iff (dec := dec) (l := l) (as := as)
    simp only [decAll, Option.bind_eq_bind, Option.pure_def, Option.bind_eq_some_iff, Option.some.injEq, List.cons.injEq,
      List.length_cons, Nat.add_right_cancel_iff]
    constructor
    · rintro ⟨b, hb, bs, hbs, rfl, rfl⟩
      obtain ⟨h1, h2⟩ := ih.1 hbs
      refine ⟨h1, fun i => ?_⟩
      cases i with
      | zero => simp only [List.getElem?_cons_zero, Option.some.injEq]; rintro _ _ rfl rfl; exact hb
      | succ i => simpa using h2 i
    · rintro ⟨h1, h2⟩
      exact ⟨a, h2 0 j a rfl rfl, as, ih.2 ⟨h1, fun i => by simpa using h2 (i + 1)⟩, rfl, rfl⟩

theorem reads_texts (v : Json) : Reads (decList decStr) Texts v := fun l => by
  cases v with
  | arr js =>
    simp only [decList, Texts, Json.arr.injEq]
    rw [decAll_iff]
    constructor
    · rintro ⟨h1, h2⟩
      apply List.ext_getElem?
      intro i
      simp only [List.getElem?_map]
      rcases Nat.lt_or_ge i js.length with h | h
      · have e1 : js[i]? = some js[i] := List.getElem?_eq_getElem h
        have e2 : l[i]? = some l[i] := List.getElem?_eq_getElem (by omega)
        have := h2 i _ _ e1 e2
        rw [reads_text] at this
        rw [e1, e2]
        simp only [Option.map_some, Option.some.injEq]
        exact this
      · rw [List.getElem?_eq_none h, List.getElem?_eq_none (by omega)]; rfl
    · rintro rfl
      refine ⟨by simp, fun i j a h1 h2 => ?_⟩
      simp only [List.getElem?_map, h2, Option.map_some, Option.some.injEq] at h1
      subst h1; rfl
  | _ => simp [decList, Texts]

theorem reads_sequence {α : Type} {dec : Json → Option α} {R : Json → α → Prop} (h : ∀ j, Reads dec R j) (v : Json) : Reads (decList dec) (Sequence R) v := fun as => by
  cases v with
  | arr l =>
    simp only [decList, Sequence, Json.arr.injEq, exists_eq_left']
    rw [decAll_iff]
    refine and_congr_right fun _ => forall_congr' fun i => forall_congr' fun j => forall_congr' fun a => ?_
    refine imp_congr_right fun _ => imp_congr_right fun _ => ?_
    exact h j a
  | _ => simp [decList, Sequence]

theorem reads_mapping {α : Type} {dec : Json → Option α} {R : Json → α → Prop} (h : ∀ j, Reads dec R j) (v : Json) :
    Reads (decMap dec) (Mapping R) v := fun m => decMap_iff h v m

theorem reads_envs (v : Json) : Reads (decMap decEnv) (Mapping MeansEnv) v := reads_mapping reads_env v

theorem zip_once {ks : List String} (hk : ks.Nodup) {l : List Json} (hl : l.length = ks.length) : Once ks (ks.zip l) := by
  have e : (ks.zip l).map Prod.fst = ks := by rw [List.map_fst_zip]; omega
  rw [← onceEach_iff, e]
  simp only [onceEach, List.all_eq_true, decide_eq_true_eq]
  exact fun k _ => List.nodup_iff_count.1 hk k

/-- A thing with keys, written as a mapping or as a sequence. -/
theorem struct_reads {α : Type} {ks : List String} (hk : ks.Nodup) {body : List (String × Json) → Option α}
    {P : List (String × Json) → Prop} (v : Json) (a : α)
    (h : ∀ o, Once ks o → (body o = some a ↔ P o)) :
    (fieldsOf ks v).bind body = some a ↔ ∃ o, Written ks v o ∧ P o := by
  cases v with
  | obj o =>
    simp only [fieldsOf, Written]
    by_cases ho : Once ks o
    · rw [if_pos ((onceEach_iff ks o).2 ho), Option.bind_some, h o ho]
      simp only [Json.obj.injEq, reduceCtorEq, false_and, exists_false, or_false]
      exact ⟨fun hp => ⟨o, ⟨rfl, ho⟩, hp⟩, fun ⟨_, ⟨e, _⟩, hp⟩ => e ▸ hp⟩
    · rw [if_neg fun hh => ho ((onceEach_iff ks o).1 hh)]
      simp only [Option.bind_none, reduceCtorEq, Json.obj.injEq, false_and, exists_false, or_false, false_iff]
      rintro ⟨_, ⟨e, hh⟩, -⟩
      exact ho (e ▸ hh)
  | arr l =>
    by_cases hl : l.length = ks.length
    · simp [fieldsOf, Written, hl, h _ (zip_once hk hl)]
    · simp [fieldsOf, Written, hl]
  | _ => simp [fieldsOf, Written]

theorem reads_options (v : Json) (c : ContainerOptions) :
    decContainer v = some c ↔ MeansContainer v (.options c) := by
  simp only [decContainer, MeansContainer, containerKeys, Option.bind_eq_bind, Option.pure_def]
  refine struct_reads ?_ v c fun o hv => ?_
  · decide
  simp only [← req_reads hv "name" (by decide) reads_text, ← opt_reads hv "volumes" (by decide) reads_texts,
    ← opt_reads hv "security-opts" (by decide) reads_texts]
  constructor
  · intro h
    simp only [Option.bind_eq_some_iff] at h
    obtain ⟨a, ⟨v, h1, h1'⟩, b, h2, d, h3, h⟩ := h
    cases h
    exact ⟨by rw [h1]; exact h1', h2, h3⟩
  · rintro ⟨h1, h2, h3⟩
    rw [h1, h2, h3]; rfl

theorem reads_container (v : Json) : Reads decUserContainer MeansContainer v := fun a => by
  cases a with
  | options c =>
    rw [← reads_options v]
    simp only [decUserContainer]
    cases decContainer v <;> simp
  | name n =>
    simp only [decUserContainer, MeansContainer, ← reads_text v n]
    cases hc : decContainer v with
    | none => simp
    | some c =>
      obtain ⟨o, ho, -⟩ := (reads_options v c).1 hc
      rcases ho with ⟨rfl, -⟩ | ⟨l, rfl, -⟩ <;> simp [decStr]

theorem reads_branch (v : Json) : Reads decBranch MeansBranch v := fun a => by
  simp only [decBranch, MeansBranch, branchKeys, Option.bind_eq_bind, Option.pure_def]
  refine struct_reads ?_ v a fun o hv => ?_
  · decide
  simp only [← opt_reads hv "branches" (by decide) reads_texts, ← opt_reads hv "paths" (by decide) reads_texts]
  constructor
  · intro h
    simp only [Option.bind_eq_some_iff] at h
    obtain ⟨a, h1, b, h2, h⟩ := h
    cases h
    exact ⟨h1, h2⟩
  · rintro ⟨h1, h2⟩
    rw [h1, h2]; rfl

theorem reads_config (v : Json) (c : ConditionConfig) :
    decConfig v = some c ↔ MeansCondition v (.config c) := by
  simp only [decConfig, MeansCondition, conditionKeys, Option.bind_eq_bind, Option.pure_def]
  refine struct_reads ?_ v c fun o hv => ?_
  · decide
  simp only [← opt_reads hv "push" (by decide) reads_branch, ← opt_reads hv "pull_request" (by decide) reads_branch]
  constructor
  · intro h
    simp only [Option.bind_eq_some_iff] at h
    obtain ⟨a, h1, b, h2, h⟩ := h
    cases h
    exact ⟨h1, h2⟩
  · rintro ⟨h1, h2⟩
    rw [h1, h2]; rfl

/-- Names of events are no configuration. -/
theorem names_no_config {v : Json} {ns : List String} {c : ConditionConfig} (h : MeansCondition v (.event ns))
    (hc : MeansCondition v (.config c)) : False := by
  simp only [MeansCondition, Texts] at h hc
  subst h
  obtain ⟨o, ho, h1, -⟩ := hc
  rcases ho with ⟨ho, -⟩ | ⟨l, hl, hn, rfl⟩
  · cases ho
  simp only [Json.arr.injEq] at hl
  subst hl
  rw [List.length_map] at hn
  match ns, hn with
  | [a, b], _ =>
    have hs : Says (conditionKeys.zip ([a, b].map Json.str)) "push" (.str a) := by simp [Says, conditionKeys]
    cases hp : c.push with
    | none => rw [hp] at h1; cases h1 _ hs
    | some p =>
      rw [hp] at h1
      obtain ⟨u, hu, -, hm⟩ := h1
      simp only [Says, conditionKeys, List.map_cons, List.map_nil, List.zip_cons_cons, List.zip_nil_right, List.mem_cons,
        Prod.mk.injEq, true_and, List.not_mem_nil, or_false] at hu
      have hu : u = .str a := by
        rcases hu with hu | hu
        · exact hu
        · exact absurd hu.1 (by decide)
      subst hu
      obtain ⟨o, ho, -⟩ := hm
      rcases ho with ⟨ho, -⟩ | ⟨l, ho, -⟩ <;> cases ho

theorem reads_condition (v : Json) : Reads decCondition MeansCondition v := fun a => by
  have ht := reads_texts v
  have hc := reads_config v
  simp only [decCondition]
  cases hd : decList decStr v with
  | some ns =>
    have hm : MeansCondition v (.event ns) := (ht ns).1 hd
    cases a with
    | event ns' => simp only [Option.some.injEq, Condition.event.injEq, MeansCondition, ← ht ns', hd]
    | config c =>
      simp only [Option.some.injEq, reduceCtorEq, false_iff]
      exact fun h => names_no_config hm h
  | none =>
    cases a with
    | event ns' => simp [MeansCondition, ← ht ns', hd]
    | config c => simp only [Option.map_eq_some_iff, Condition.config.injEq, exists_eq_right, hc c]

theorem reads_command (v : Json) : Reads decUserCommand MeansCommand v := fun a => by
  simp only [decUserCommand, MeansCommand, commandKeys, Option.bind_eq_bind, Option.pure_def]
  refine struct_reads ?_ v a fun o hv => ?_
  · decide
  simp only [← opt_reads hv "name" (by decide) reads_text,
    ← opt_reads hv "container" (by decide) reads_container,
    ← req_reads hv "run" (by decide) reads_text,
    ← opt_reads hv "on" (by decide) reads_condition,
    ← opt_reads hv "continue-on-error" (by decide) reads_truth,
    ← opt_reads hv "environments" (by decide) reads_envs,
    ← opt_reads hv "secrets" (by decide) reads_texts,
    ← opt_reads hv "timeout" (by decide) reads_text]
  constructor
  · intro h
    simp only [Option.bind_eq_some_iff] at h
    obtain ⟨a, h1, b, h2, r, ⟨v, h3, h3'⟩, d, h4, e, h5, f, h6, g, h7, t, h8, h⟩ := h
    cases h
    exact ⟨h1, h2, by rw [h3]; exact h3', h4, h5, h6, h7, h8⟩
  · rintro ⟨h1, h2, h3, h4, h5, h6, h7, h8⟩
    rw [h1, h2, h3, h4, h5, h6, h7, h8]; rfl

theorem reads_action {x : WithText} (v : Json) : Reads (decUserAction x) (MeansAction x) v := fun a => by
  simp only [decUserAction, MeansAction, actionKeys, Option.bind_eq_bind, Option.pure_def]
  refine struct_reads ?_ v a fun o hv => ?_
  · decide
  have hw : ∀ v, Reads (fun j => some (x.text j)) (fun w t => t = x.text w) v :=
    fun v a => ⟨fun h => (Option.some.inj h).symm, fun h => by rw [h]⟩
  simp only [← opt_reads hv "name" (by decide) reads_text,
    ← req_reads hv "uses" (by decide) reads_text,
    ← opt_reads hv "with" (by decide) hw,
    ← opt_reads hv "on" (by decide) reads_condition,
    ← opt_reads hv "continue-on-error" (by decide) reads_truth,
    ← opt_reads hv "environments" (by decide) reads_envs,
    ← opt_reads hv "secrets" (by decide) reads_texts,
    ← opt_reads hv "timeout" (by decide) reads_text]
  constructor
  · intro h
    simp only [Option.bind_eq_some_iff] at h
    obtain ⟨a, h1, r, ⟨v, h3, h3'⟩, b, h2, d, h4, e, h5, f, h6, g, h7, t, h8, h⟩ := h
    cases h
    exact ⟨h1, by rw [h3]; exact h3', h2, h4, h5, h6, h7, h8⟩
  · rintro ⟨h1, h3, h2, h4, h5, h6, h7, h8⟩
    rw [h1, h2, h3, h4, h5, h6, h7, h8]; rfl

theorem reads_step {x : WithText} (v : Json) : Reads (decUserStep x) (MeansStep x) v := fun a => by
  have hc := reads_command v
  simp only [decUserStep]
  cases hd : decUserCommand v with
  | some c =>
    cases a with
    | command c' => simp only [Option.some.injEq, UserStep.command.injEq, MeansStep, ← hc c', hd]
    | action a =>
      simp only [Option.some.injEq, reduceCtorEq, MeansStep, false_iff, not_and]
      exact fun _ h => h c ((hc c).1 hd)
  | none =>
    cases a with
    | command c' => simp [MeansStep, ← hc c', hd]
    | action a =>
      simp only [Option.map_eq_some_iff, UserStep.action.injEq, exists_eq_right, MeansStep, reads_action v a]
      refine ⟨fun h => ⟨h, fun c hc' => ?_⟩, And.left⟩
      rw [← hc c, hd] at hc'
      cases hc'

theorem reads_job {x : WithText} (v : Json) : Reads (decUserJob x) (MeansJob x) v := fun a => by
  simp only [decUserJob, MeansJob, jobKeys, Option.bind_eq_bind, Option.pure_def]
  refine struct_reads ?_ v a fun o hv => ?_
  · decide
  have hs : ∀ v, Reads (decVec (decUserStep x))
      (fun v l => (v = .null ∧ l = []) ∨ Sequence (MeansStep x) v l) v := by
    intro v l
    have hq := reads_sequence (dec := decUserStep x) (R := MeansStep x) reads_step v l
    cases v <;> simp [decVec, ← hq, decList, eq_comm]
  simp only [← opt_reads hv "name" (by decide) reads_text,
    ← opt_reads hv "container" (by decide) reads_container,
    ← opt_reads hv "working-directories" (by decide) reads_texts,
    ← req_reads hv "steps" (by decide) hs,
    ← opt_reads hv "on" (by decide) reads_condition,
    ← opt_reads hv "depends-on" (by decide) reads_texts]
  constructor
  · intro h
    simp only [Option.bind_eq_some_iff] at h
    obtain ⟨a, h1, b, h2, d, h4, r, ⟨v, h3, h3'⟩, e, h5, f, h6, h⟩ := h
    cases h
    exact ⟨h1, h2, h4, by rw [h3]; exact h3', h5, h6⟩
  · rintro ⟨h1, h2, h4, h3, h5, h6⟩
    rw [h1, h2, h3, h4, h5, h6]; rfl

/-- **C79** What a document means.  A document is read as a configuration exactly when
`MeansWorkflow` says that this is what it means; in particular every value ends up in the field it was written for, and
nothing else is accepted. -/
theorem C79_meaning (x : WithText) (v : Json) (w : UserWorkflow) :
    decUserWorkflow x v = some w ↔ MeansWorkflow x v w := by
  simp only [decUserWorkflow, MeansWorkflow, workflowKeys, Option.bind_eq_bind, Option.pure_def]
  refine struct_reads ?_ v w fun o hv => ?_
  · decide
  have hs : ∀ v, Reads (decHashMap (decUserJob x))
      (fun v m => (v = .null ∧ m = []) ∨ Mapping (MeansJob x) v m) v := by
    intro v l
    have hq := reads_mapping (dec := decUserJob x) (R := MeansJob x) reads_job v l
    cases v <;> simp [decHashMap, ← hq, decMap, eq_comm]
  simp only [← opt_reads hv "name" (by decide) reads_text,
    ← opt_reads hv "on" (by decide) reads_condition,
    ← req_reads hv "jobs" (by decide) hs]
  constructor
  · intro h
    simp only [Option.bind_eq_some_iff] at h
    obtain ⟨a, h1, b, h2, r, ⟨v, h3, h3'⟩, h⟩ := h
    cases h
    exact ⟨h1, h2, by rw [h3]; exact h3'⟩
  · rintro ⟨h1, h2, h3⟩
    rw [h1, h2, h3]; rfl

theorem fld_agree {ks : List String} {o o' : List (String × Json)}
    (ha : AgreeOn ks o o') {k : String} (hk : k ∈ ks) : fld o k = fld o' k := by
  rw [fld_head, fld_head, ha k hk]

theorem Spec.Once.mono {ks ks' : List String} {o : List (String × Json)} (h : Once ks' o) (hs : ∀ k ∈ ks, k ∈ ks') : Once ks o :=
  fun k hk => h k (hs k hk)

theorem agree_fields {α : Type} {ks ks' : List String} (hs : ∀ k ∈ ks, k ∈ ks') {o o' : List (String × Json)} (ha : AgreeOn ks' o o')
    {body : List (String × Json) → Option α} (hb : (∀ k ∈ ks, fld o k = fld o' k) → body o = body o') :
    (fieldsOf ks (.obj o)).bind body = (fieldsOf ks (.obj o')).bind body := by
  have he : Once ks o ↔ Once ks o' := forall_congr' fun k => imp_congr_right fun hk => by rw [ha k (hs k hk)]
  simp only [fieldsOf]
  by_cases ho : Once ks o
  · rw [if_pos ((onceEach_iff ks o).2 ho), if_pos ((onceEach_iff ks o').2 (he.1 ho))]
    exact hb fun k hk => fld_agree ha (hs k hk)
  · rw [if_neg fun hh => ho ((onceEach_iff ks o).1 hh), if_neg fun hh => ho (he.2 ((onceEach_iff ks o').1 hh))]

/-- What a mapping without repeated keys is read from. -/
theorem fieldsOf_once {ks : List String} {o : List (String × Json)} (h : Once ks o) : fieldsOf ks (.obj o) = some o :=
  fieldsOf_obj ((onceEach_iff ks o).2 h)

theorem rt_userContainer (c : Container) : RT encUserContainer decUserContainer c := by
  cases c with
  | options o => exact ⟨by simp [encUserContainer, decUserContainer, (rt_container o).back], (rt_container o).nonnull⟩
  | name n => exact ⟨rfl, by simp [encUserContainer]⟩

theorem rt_bool' (b : Bool) : RT .bool decBool b := ⟨rfl, by simp⟩
theorem rt_envs' {e : EnvironmentVariables} (h : IsMap e) : RT (encMap encYamlEnv) (decMap decEnv) e :=
  ⟨rt_map (fun a _ => by rcases a with ⟨k, v⟩; cases v <;> rfl) h, by simp [encMap]⟩

theorem rt_userCommand {c : UserCommandStep} (h : StepWritable (.command c)) :
    decUserCommand (encUserCommand c) = some c := by
  simp only [decUserCommand, encUserCommand]
  fields
  rw [rt_opt fun a _ => rt_str' a, rt_opt fun a _ => rt_userContainer a, rt_opt fun a _ => rt_condition a,
    rt_opt fun a _ => rt_bool' a, rt_opt fun a ha => rt_envs' (h a ha), rt_opt fun a _ => rt_strs' a,
    rt_opt fun a _ => rt_str' a]
  rfl

theorem rt_userAction {x : WithText} (hx : WithText.Lawful x) {c : UserActionStep} (h : StepWritable (.action c)) :
    decUserAction x (encUserAction x c) = some c := by
  simp only [decUserAction, encUserAction]
  fields
  have hw : decOpt (fun j => some (x.text j)) (some (encOpt x.value c.withValue)) = some c.withValue :=
    rt_opt fun a _ => ⟨by simp [hx.back], hx.nonnull a⟩
  rw [rt_opt fun a _ => rt_str' a, hw, rt_opt fun a _ => rt_condition a,
    rt_opt fun a _ => rt_bool' a, rt_opt fun a ha => rt_envs' (h a ha), rt_opt fun a _ => rt_strs' a,
    rt_opt fun a _ => rt_str' a]
  rfl

theorem command_of_action {x : WithText} (c : UserActionStep) : decUserCommand (encUserAction x c) = none := by
  have : fld [("name", encOpt Json.str c.name), ("uses", .str c.uses), ("with", encOpt x.value c.withValue),
    ("on", encOpt encCondition c.on), ("continue-on-error", encOpt .bool c.continueOnError),
    ("environments", encOpt (encMap encYamlEnv) c.environments), ("secrets", encOpt (encList .str) c.secrets),
    ("timeout", encOpt .str c.timeout)] "run" = none := by
    simp (decide := true) [fld]
  simp only [decUserCommand, encUserAction]
  rw [fieldsOf_obj (by rfl)]
  simp only [this, Option.bind_some, Option.bind_eq_bind]
  cases decOpt decStr (fld _ "name") with
  | none => rfl
  | some a =>
    simp only [Option.bind_some, Option.bind_eq_bind]
    cases decOpt decUserContainer (fld _ "container") <;> rfl

theorem rt_userStep {x : WithText} (hx : WithText.Lawful x) {s : UserStep} (h : StepWritable s) :
    decUserStep x (encUserStep x s) = some s := by
  cases s with
  | command c => simp only [decUserStep, encUserStep, rt_userCommand h]
  | action a => simp only [decUserStep, encUserStep, command_of_action, rt_userAction hx h, Option.map_some]

theorem rt_userJob {x : WithText} (hx : WithText.Lawful x) {j : UserJob} (h : ∀ s ∈ j.steps, StepWritable s) :
    decUserJob x (encUserJob x j) = some j := by
  simp only [decUserJob, encUserJob]
  fields
  have hs : decVec (decUserStep x) (encList (encUserStep x) j.steps) = some j.steps := by
    have := rt_list (enc := encUserStep x) (dec := decUserStep x) (l := j.steps) fun s hs => rt_userStep hx (h s hs)
    simpa [decVec, encList] using this
  rw [rt_opt fun a _ => rt_str' a, rt_opt fun a _ => rt_userContainer a, rt_opt fun a _ => rt_strs' a, hs,
    rt_opt fun a _ => rt_condition a, rt_opt fun a _ => rt_strs' a]
  rfl

/-- **C79** Every configuration can be written down, and the document is read as exactly that configuration:
no field is lost, swapped or defaulted, commands stay commands and actions stay actions. -/
theorem C79_round_trip (x : WithText) (hx : WithText.Lawful x) (w : UserWorkflow) (h : Writable w) :
    decUserWorkflow x (encUserWorkflow x w) = some w := by
  simp only [decUserWorkflow, encUserWorkflow]
  fields
  have hs : decHashMap (decUserJob x) (encMap (encUserJob x) w.jobs) = some w.jobs := by
    have := rt_map (enc := encUserJob x) (dec := decUserJob x) (l := w.jobs)
      (fun e he => rt_userJob hx (h.2 e.1 e.2 he)) h.1
    simpa [decHashMap, encMap] using this
  rw [rt_opt fun a _ => rt_str' a, rt_opt fun a _ => rt_condition a, hs]
  rfl

/-- **C79** Keys that are not documented have no effect, and the order of the keys does not matter: two mappings that say
the same about the documented keys are read the same, wherever they occur. -/
theorem C79_documented_keys (x : WithText) (o o' : List (String × Json)) :
    (AgreeOn workflowKeys o o' → decUserWorkflow x (.obj o) = decUserWorkflow x (.obj o')) ∧
    (AgreeOn jobKeys o o' → decUserJob x (.obj o) = decUserJob x (.obj o')) ∧
    (AgreeOn stepKeys o o' → decUserStep x (.obj o) = decUserStep x (.obj o')) ∧
    (AgreeOn containerKeys o o' → decUserContainer (.obj o) = decUserContainer (.obj o')) ∧
    (AgreeOn conditionKeys o o' → decCondition (.obj o) = decCondition (.obj o')) ∧
    (AgreeOn branchKeys o o' → decBranch (.obj o) = decBranch (.obj o')) := by
  have hcmd : AgreeOn stepKeys o o' → decUserCommand (.obj o) = decUserCommand (.obj o') := fun ha => by
    simp only [decUserCommand, Option.bind_eq_bind]
    refine agree_fields (by decide) ha fun hf => ?_
    rw [hf "name" (by decide), hf "on" (by decide), hf "container" (by decide), hf "run" (by decide),
      hf "continue-on-error" (by decide), hf "environments" (by decide), hf "secrets" (by decide), hf "timeout" (by decide)]
  have hact : AgreeOn stepKeys o o' → decUserAction x (.obj o) = decUserAction x (.obj o') := fun ha => by
    simp only [decUserAction, Option.bind_eq_bind]
    refine agree_fields (by decide) ha fun hf => ?_
    rw [hf "name" (by decide), hf "on" (by decide), hf "uses" (by decide), hf "with" (by decide),
      hf "continue-on-error" (by decide), hf "environments" (by decide), hf "secrets" (by decide), hf "timeout" (by decide)]
  have hbox : AgreeOn containerKeys o o' → decContainer (.obj o) = decContainer (.obj o') := fun ha => by
    simp only [decContainer, Option.bind_eq_bind]
    refine agree_fields (by decide) ha fun hf => ?_
    rw [hf "name" (by decide), hf "volumes" (by decide), hf "security-opts" (by decide)]
  have hcfg : AgreeOn conditionKeys o o' → decConfig (.obj o) = decConfig (.obj o') := fun ha => by
    simp only [decConfig, Option.bind_eq_bind]
    refine agree_fields (by decide) ha fun hf => ?_
    rw [hf "push" (by decide), hf "pull_request" (by decide)]
  refine ⟨fun ha => ?_, fun ha => ?_, fun ha => ?_, fun ha => ?_, fun ha => ?_, fun ha => ?_⟩
  · simp only [decUserWorkflow, Option.bind_eq_bind]
    refine agree_fields (by decide) ha fun hf => ?_
    rw [hf "name" (by decide), hf "on" (by decide), hf "jobs" (by decide)]
  · simp only [decUserJob, Option.bind_eq_bind]
    refine agree_fields (by decide) ha fun hf => ?_
    rw [hf "name" (by decide), hf "on" (by decide), hf "container" (by decide), hf "working-directories" (by decide),
      hf "steps" (by decide), hf "depends-on" (by decide)]
  · simp only [decUserStep, hcmd ha, hact ha]
  · simp only [decUserContainer, hbox ha]; rfl
  · simp only [decCondition, hcfg ha]; rfl
  · simp only [decBranch, Option.bind_eq_bind]
    refine agree_fields (by decide) ha fun hf => ?_
    rw [hf "branches" (by decide), hf "paths" (by decide)]

theorem decOpt_ok {α : Type} {dec : Json → Option α} {ks : List String} {o : List (String × Json)} (h : Once ks o) {k : String} (hk : k ∈ ks) :
    (∃ a, decOpt dec (fld o k) = some a) ↔ ∀ v, Says o k v → v = .null ∨ ∃ a, dec v = some a := by
  constructor
  · rintro ⟨a, ha⟩ v hv
    rw [(fld_says h hk v).2 hv] at ha
    cases v <;> first | exact .inl rfl | (right; simp only [decOpt, Option.map_eq_some_iff] at ha; obtain ⟨b, hb, _⟩ := ha; exact ⟨b, hb⟩)
  · intro hv
    cases hf : fld o k with
    | none => exact ⟨none, rfl⟩
    | some v =>
      rcases hv v ((fld_says h hk v).1 hf) with rfl | ⟨a, ha⟩
      · exact ⟨none, rfl⟩
      · cases v <;> first | exact ⟨none, rfl⟩ | exact ⟨some a, by simp [decOpt, ha]⟩

theorem decStr_ok (v : Json) : (∃ s, decStr v = some s) ↔ ∃ s, v = .str s := by
  cases v <;> simp [decStr]
theorem decBool_ok (v : Json) : (∃ s, decBool v = some s) ↔ ∃ s, v = .bool s := by
  cases v <;> simp [decBool]
theorem decStrs_ok (v : Json) : (∃ l, decList decStr v = some l) ↔ ∃ l : List String, v = .arr (l.map .str) := by
  cases v with
  | arr l =>
    simp only [decList, Json.arr.injEq]
    induction l with
    | nil => exact ⟨fun _ => ⟨[], rfl⟩, fun _ => ⟨[], rfl⟩⟩
    | cons j l ih =>
      constructor
      · rintro ⟨as, h⟩
        simp only [decAll] at h
        cases hj : decStr j with
        | none => simp [hj] at h
        | some a =>
          cases hl : decAll decStr l with
          | none => simp [hj, hl] at h
          | some b =>
            obtain ⟨l', hl'⟩ := ih.1 ⟨b, hl⟩
            have : j = .str a := by cases j <;> simp [decStr] at hj; rw [hj]
            exact ⟨a :: l', by simp [this, hl']⟩
      · rintro ⟨l', h⟩
        cases l' with
        | nil => simp at h
        | cons a l' =>
          simp only [List.map_cons, List.cons.injEq] at h
          obtain ⟨b, hb⟩ := ih.2 ⟨l', h.2⟩
          exact ⟨a :: b, by simp [decAll, h.1, hb]⟩
  | _ => simp [decList]

theorem bind_ok {α β : Type} (o : Option α) (f : α → Option β) :
    (∃ b, o.bind f = some b) ↔ ∃ a, o = some a ∧ ∃ b, f a = some b := by
  cases o <;> simp

/-- When the shared keys are fine. -/
theorem shared_ok {o : List (String × Json)} (h : Once stepKeys o) : SharedKeysOk o ↔
    (∃ a, decOpt decStr (fld o "name") = some a) ∧ (∃ a, decOpt decCondition (fld o "on") = some a) ∧
    (∃ a, decOpt decBool (fld o "continue-on-error") = some a) ∧
    (∃ a, decOpt (decMap decEnv) (fld o "environments") = some a) ∧
    (∃ a, decOpt (decList decStr) (fld o "secrets") = some a) ∧ (∃ a, decOpt decStr (fld o "timeout") = some a) := by
  have hon : (∃ a, decOpt decCondition (fld o "on") = some a) ↔
      ∀ v, Says o "on" v → v = .null ∨ ∃ c, MeansCondition v c := by
    rw [decOpt_ok h (by decide)]
    exact forall_congr' fun v => imp_congr_right fun _ => or_congr_right (exists_congr fun a => reads_condition v a)
  have henv : (∃ a, decOpt (decMap decEnv) (fld o "environments") = some a) ↔
      ∀ v, Says o "environments" v → v = .null ∨ ∃ e, Mapping MeansEnv v e := by
    rw [decOpt_ok h (by decide)]
    exact forall_congr' fun v => imp_congr_right fun _ => or_congr_right (exists_congr fun a => reads_envs v a)
  rw [hon, henv]
  rw [decOpt_ok h (k := "name") (by decide), decOpt_ok h (k := "continue-on-error") (by decide), decOpt_ok h (k := "secrets") (by decide),
    decOpt_ok h (k := "timeout") (by decide)]
  simp only [decStr_ok, decBool_ok, decStrs_ok]
  constructor
  · intro g; exact ⟨g.1, g.2, g.3, g.4, g.5, g.6⟩
  · rintro ⟨a, b, c, d, e, f⟩; exact ⟨a, b, c, d, e, f⟩

theorem run_ok {ks : List String} {o : List (String × Json)} (h : Once ks o) {k : String} (hk : k ∈ ks) :
    (∃ s, (fld o k).bind decStr = some s) ↔ ∃ s, Says o k (.str s) := by
  rw [bind_ok]
  constructor
  · rintro ⟨v, hv, hs⟩
    obtain ⟨s, rfl⟩ := (decStr_ok v).1 hs
    exact ⟨s, (fld_says h hk _).1 hv⟩
  · rintro ⟨s, hs⟩
    exact ⟨_, (fld_says h hk _).2 hs, s, rfl⟩

theorem once_command {o : List (String × Json)} (h : Once stepKeys o) :
    fieldsOf ["name", "container", "run", "on", "continue-on-error", "environments", "secrets", "timeout"] (.obj o) = some o :=
  fieldsOf_once (h.mono (by decide))
theorem once_action {o : List (String × Json)} (h : Once stepKeys o) :
    fieldsOf ["name", "uses", "with", "on", "continue-on-error", "environments", "secrets", "timeout"] (.obj o) = some o :=
  fieldsOf_once (h.mono (by decide))

theorem command_ok {o : List (String × Json)} (h : Once stepKeys o) : (∃ c, decUserCommand (.obj o) = some c) ↔
    SharedKeysOk o ∧ ContainerOk o ∧ ∃ s, Says o "run" (.str s) := by
  have hcont : ContainerOk o ↔ ∃ a, decOpt decUserContainer (fld o "container") = some a := by
    rw [decOpt_ok h (by decide)]
    exact forall_congr' fun v => imp_congr_right fun _ =>
      or_congr_right (exists_congr fun a => (reads_container v a).symm)
  rw [shared_ok h, ← run_ok h (k := "run") (by decide), hcont]
  simp only [decUserCommand, once_command h, Option.bind_some, Option.bind_eq_bind, Option.pure_def]
  constructor
  · rintro ⟨c, hc⟩
    simp only [Option.bind_eq_some_iff] at hc
    obtain ⟨a, h1, b, h2, r, ⟨v, h3, h3'⟩, d, h4, e, h5, f, h6, g, h7, t, h8, _⟩ := hc
    refine ⟨⟨⟨a, h1⟩, ⟨d, h4⟩, ⟨e, h5⟩, ⟨f, h6⟩, ⟨g, h7⟩, t, h8⟩, ⟨b, h2⟩, r, ?_⟩
    rw [h3]; exact h3'
  · rintro ⟨⟨⟨a, h1⟩, ⟨d, h4⟩, ⟨e, h5⟩, ⟨f, h6⟩, ⟨g, h7⟩, t, h8⟩, ⟨b, h2⟩, r, h3⟩
    simp [h1, h2, h3, h4, h5, h6, h7, h8]

theorem action_ok {x : WithText} {o : List (String × Json)} (h : Once stepKeys o) : (∃ c, decUserAction x (.obj o) = some c) ↔
    SharedKeysOk o ∧ ∃ s, Says o "uses" (.str s) := by
  rw [shared_ok h, ← run_ok h (k := "uses") (by decide)]
  simp only [decUserAction, once_action h, Option.bind_some, Option.bind_eq_bind, Option.pure_def]
  have hw : ∃ v, decOpt (fun j => some (x.text j)) (fld o "with") = some v := by
    rw [decOpt_ok h (by decide)]
    exact fun v _ => .inr ⟨_, rfl⟩
  constructor
  · rintro ⟨c, hc⟩
    simp only [Option.bind_eq_some_iff] at hc
    obtain ⟨a, h1, r, ⟨v, h3, h3'⟩, b, h2, d, h4, e, h5, f, h6, g, h7, t, h8, _⟩ := hc
    refine ⟨⟨⟨a, h1⟩, ⟨d, h4⟩, ⟨e, h5⟩, ⟨f, h6⟩, ⟨g, h7⟩, t, h8⟩, r, ?_⟩
    rw [h3]; exact h3'
  · rintro ⟨⟨⟨a, h1⟩, ⟨d, h4⟩, ⟨e, h5⟩, ⟨f, h6⟩, ⟨g, h7⟩, t, h8⟩, r, h3⟩
    obtain ⟨b, h2⟩ := hw
    simp [h1, h2, h3, h4, h5, h6, h7, h8]

theorem command_run {o : List (String × Json)} (h : Once stepKeys o) {c : UserCommandStep}
    (hc : decUserCommand (.obj o) = some c) : Says o "run" (.str c.run) := by
  simp only [decUserCommand, once_command h, Option.bind_some, Option.bind_eq_bind, Option.pure_def, Option.bind_eq_some_iff] at hc
  obtain ⟨a, h1, b, h2, r, ⟨v, h3, h3'⟩, d, h4, e, h5, f, h6, g, h7, t, h8, hh⟩ := hc
  simp only [Option.some.injEq] at hh
  subst hh
  have : v = .str r := by cases v <;> simp [decStr] at h3'; rw [h3']
  rw [← this]
  exact (fld_says h (by decide) _).1 h3

theorem action_uses {x : WithText} {o : List (String × Json)} (h : Once stepKeys o) {c : UserActionStep}
    (hc : decUserAction x (.obj o) = some c) : Says o "uses" (.str c.uses) := by
  simp only [decUserAction, once_action h, Option.bind_some, Option.bind_eq_bind, Option.pure_def, Option.bind_eq_some_iff] at hc
  obtain ⟨a, h1, r, ⟨v, h3, h3'⟩, b, h2, d, h4, e, h5, f, h6, g, h7, t, h8, hh⟩ := hc
  simp only [Option.some.injEq] at hh
  subst hh
  have : v = .str r := by cases v <;> simp [decStr] at h3'; rw [h3']
  rw [← this]
  exact (fld_says h (by decide) _).1 h3

/-- **C79** What kind of step a mapping is.  With a text under `run` (and sound keys) it is a command with that text,
even when it also has `uses`; otherwise, with a text under `uses`, it is an action with that name, and what it says
under `run` or `container` is ignored; anything else is rejected. -/
theorem C79_step_kind (x : WithText) (o : List (String × Json)) (h : Once stepKeys o) :
    ((∃ c, decUserStep x (.obj o) = some (.command c)) ↔
      SharedKeysOk o ∧ ContainerOk o ∧ ∃ s, Says o "run" (.str s)) ∧
    ((∃ a, decUserStep x (.obj o) = some (.action a)) ↔
      SharedKeysOk o ∧ ¬ (ContainerOk o ∧ ∃ s, Says o "run" (.str s)) ∧ ∃ s, Says o "uses" (.str s)) ∧
    (∀ c, decUserStep x (.obj o) = some (.command c) → Says o "run" (.str c.run)) ∧
    (∀ a, decUserStep x (.obj o) = some (.action a) → Says o "uses" (.str a.uses)) := by
  have hc := command_ok h
  have ha := action_ok (x := x) h
  refine ⟨?_, ?_, ?_, ?_⟩
  · rw [← hc]
    simp only [decUserStep]
    cases decUserCommand (.obj o) <;> simp
  · simp only [decUserStep]
    cases hd : decUserCommand (.obj o) with
    | some c =>
      have := hc.1 ⟨c, hd⟩
      constructor
      · simp
      · rintro ⟨_, h2, _⟩; exact absurd this.2 h2
    | none =>
      have hn : ¬ (SharedKeysOk o ∧ ContainerOk o ∧ ∃ s, Says o "run" (.str s)) := by
        rw [← hc, hd]; simp
      have : (∃ a, (Option.map UserStep.action (decUserAction x (.obj o))) = some (.action a)) ↔
          ∃ a, decUserAction x (.obj o) = some a := by
        cases decUserAction x (.obj o) <;> simp
      rw [this, ha]
      constructor
      · rintro ⟨h1, h2⟩; exact ⟨h1, fun h3 => hn ⟨h1, h3⟩, h2⟩
      · rintro ⟨h1, _, h2⟩; exact ⟨h1, h2⟩
  · intro c hcc
    simp only [decUserStep] at hcc
    cases hd : decUserCommand (.obj o) with
    | some c' =>
      simp only [hd, Option.some.injEq, UserStep.command.injEq] at hcc
      subst hcc
      exact command_run h hd
    | none => simp [hd] at hcc
  · intro a haa
    simp only [decUserStep] at haa
    cases hd : decUserCommand (.obj o) with
    | some c' => simp [hd] at haa
    | none =>
      simp only [hd, Option.map_eq_some_iff, UserStep.action.injEq, exists_eq_right] at haa
      exact action_uses h haa

/-- **C79** (with C34) A document is accepted exactly when it can be read and is well-formed, and every rejection is a
configuration error. -/
theorem C79_accepts (x : WithText) (reason : String) (j : Json) :
    (∀ w, tryFromDocument x reason j = .ok w ↔ decUserWorkflow x j = some w ∧ WellFormed w) ∧
    (∀ e, tryFromDocument x reason j = .error e → ∃ m, e = .workflowConfigError m) := by
  cases hd : decUserWorkflow x j with
  | none =>
    have ht : tryFromDocument x reason j = .error (.workflowConfigError ("Failed to parse workflow: " ++ reason)) := by
      simp only [tryFromDocument, hd]
    rw [ht]
    exact ⟨fun w => by simp, fun e he => ⟨_, (Except.error.inj he).symm⟩⟩
  | some w' =>
    have hv := C34_validator_decision w'
    rcases hw : w'.validate with e | u
    · have ht : tryFromDocument x reason j = .error e := by simp only [tryFromDocument, hd, hw]
      rw [ht]
      refine ⟨fun w => ?_, fun e' he => ?_⟩
      · simp only [reduceCtorEq, Option.some.injEq, false_iff, not_and]
        rintro rfl hwf
        rw [hv.1.2 hwf] at hw
        simp at hw
      · obtain ⟨m, rfl⟩ := hv.2.2 e hw
        exact ⟨m, (Except.error.inj he).symm⟩
    · have ht : tryFromDocument x reason j = .ok w' := by simp only [tryFromDocument, hd, hw]
      rw [ht]
      refine ⟨fun w => ?_, fun e' he => by simp at he⟩
      simp only [Except.ok.injEq, Option.some.injEq]
      constructor
      · rintro rfl; exact ⟨rfl, hv.1.1 hw⟩
      · exact And.left

/-- **C79** (with C31) A condition given as a mapping without any documented event never lets anything through: a
misspelt event is not reported but disables the workflow, job or step for every event. -/
theorem C79_unknown_event (o : List (String × Json))
    (hp : ∀ v, ¬ Says o "push" v) (hr : ∀ v, ¬ Says o "pull_request" v) :
    ∃ c, decCondition (.obj o) = some c ∧ ∀ g p, c.isMatch g p = false := by
  refine ⟨.config { push := none, pullRequest := none }, ?_, fun g p => by simp [Condition.isMatch]⟩
  have h0 : ∀ k, (∀ v, ¬ Says o k v) → o.filter (fun e => e.1 = k) = [] := fun k hk => by
    apply List.filter_eq_nil_iff.2
    rintro ⟨k', v⟩ he
    simp only [decide_eq_true_eq]
    rintro rfl
    exact hk v he
  have ho : Once ["push", "pull_request"] o := by
    intro k hk
    simp only [List.mem_cons, List.not_mem_nil, or_false] at hk
    rcases hk with rfl | rfl
    · rw [h0 _ hp]; decide
    · rw [h0 _ hr]; decide
  have h1 : fld o "push" = none := by rw [fld_head, h0 _ hp]; rfl
  have h2 : fld o "pull_request" = none := by rw [fld_head, h0 _ hr]; rfl
  simp [decCondition, decList, decConfig, fieldsOf_once ho, h1, h2, decOpt]

theorem fld_snoc {o : List (String × Json)} {k : String} (hk : k ∉ o.map Prod.fst) (v : Json) (k' : String) :
    fld (o ++ [(k, v)]) k' = if k' = k then some v else fld o k' := by
  induction o with
  | nil =>
    by_cases h : k' = k
    · subst h; simp [fld]
    · simp [fld, h, Ne.symm h]
  | cons e o ih =>
    obtain ⟨k0, v0⟩ := e
    simp only [List.map_cons, List.mem_cons, not_or] at hk
    by_cases h0 : k0 = k'
    · subst h0
      rw [List.cons_append, fld_hit, fld_hit, if_neg (fun h => hk.1 h.symm)]
    · rw [List.cons_append, fld_skip (by simpa using h0), fld_skip (by simpa using h0), ih hk.2]

theorem fld_none {o : List (String × Json)} {k : String} (hk : k ∉ o.map Prod.fst) : fld o k = none := by
  induction o with
  | nil => rfl
  | cons e o ih =>
    obtain ⟨k0, v0⟩ := e
    simp only [List.map_cons, List.mem_cons, not_or] at hk
    rw [fld_skip (by simpa using Ne.symm hk.1), ih hk.2]

theorem decOpt_snoc {α : Type} {dec : Json → Option α} {o : List (String × Json)} {k : String}
    (hk : k ∉ o.map Prod.fst) (k' : String) : decOpt dec (fld (o ++ [(k, .null)]) k') = decOpt dec (fld o k') := by
  rw [fld_snoc hk]
  split
  · next h => subst h; rw [fld_none hk]; rfl
  · rfl
theorem decReq_snoc {α : Type} {dec : Json → Option α} (hd : dec .null = none) {o : List (String × Json)} {k : String}
    (hk : k ∉ o.map Prod.fst) (k' : String) : (fld (o ++ [(k, .null)]) k').bind dec = (fld o k').bind dec := by
  rw [fld_snoc hk]
  split
  · next h => subst h; rw [fld_none hk]; simp [hd]
  · rfl

theorem snoc_fields {α : Type} (ks : List String) {o : List (String × Json)} {k : String} (v v' : Json)
    {body : List (String × Json) → Option α} (hb : body (o ++ [(k, v)]) = body (o ++ [(k, v')])) :
    (fieldsOf ks (.obj (o ++ [(k, v)]))).bind body = (fieldsOf ks (.obj (o ++ [(k, v')]))).bind body := by
  simp only [fieldsOf, List.map_append, List.map_cons, List.map_nil]
  split
  · exact hb
  · rfl
theorem snoc_null {α : Type} (ks : List String) {o : List (String × Json)} {k : String} (hk : k ∉ o.map Prod.fst) (v : Json)
    {body : List (String × Json) → Option α} (hb : body (o ++ [(k, v)]) = body o) :
    (fieldsOf ks (.obj (o ++ [(k, v)]))).bind body = (fieldsOf ks (.obj o)).bind body := by
  have he : onceEach ks ((o ++ [(k, v)]).map Prod.fst) = onceEach ks (o.map Prod.fst) := by
    unfold onceEach
    congr 1
    funext k'
    rw [List.map_append, List.count_append]
    by_cases h : k = k'
    · subst h
      rw [List.count_eq_zero.2 hk]; simp
    · simp [h]
  simp only [fieldsOf, he]
  split
  · exact hb
  · rfl

/-- **C79** A key without a value is the same as no key, except for `steps` and `jobs`, which are then empty. -/
theorem C79_empty_value (x : WithText) (o : List (String × Json)) (k : String) (hk : k ∉ o.map Prod.fst) :
    decUserStep x (.obj (o ++ [(k, .null)])) = decUserStep x (.obj o) ∧
    decUserContainer (.obj (o ++ [(k, .null)])) = decUserContainer (.obj o) ∧
    decCondition (.obj (o ++ [(k, .null)])) = decCondition (.obj o) ∧
    (k ≠ "steps" → decUserJob x (.obj (o ++ [(k, .null)])) = decUserJob x (.obj o)) ∧
    (k ≠ "jobs" → decUserWorkflow x (.obj (o ++ [(k, .null)])) = decUserWorkflow x (.obj o)) ∧
    (k = "steps" → decUserJob x (.obj (o ++ [(k, .null)])) = decUserJob x (.obj (o ++ [(k, .arr [])])) ∧
      decUserJob x (.obj o) = none) ∧
    (k = "jobs" → decUserWorkflow x (.obj (o ++ [(k, .null)])) = decUserWorkflow x (.obj (o ++ [(k, .obj [])])) ∧
      decUserWorkflow x (.obj o) = none) := by
  have hcmd : decUserCommand (.obj (o ++ [(k, .null)])) = decUserCommand (.obj o) := by
    simp only [decUserCommand, Option.bind_eq_bind]
    refine snoc_null _ hk _ ?_
    simp only [decOpt_snoc hk, decReq_snoc (dec := decStr) rfl hk]
  have hact : decUserAction x (.obj (o ++ [(k, .null)])) = decUserAction x (.obj o) := by
    simp only [decUserAction, Option.bind_eq_bind]
    refine snoc_null _ hk _ ?_
    simp only [decOpt_snoc hk, decReq_snoc (dec := decStr) rfl hk]
  have hbox : decContainer (.obj (o ++ [(k, .null)])) = decContainer (.obj o) := by
    simp only [decContainer, Option.bind_eq_bind]
    refine snoc_null _ hk _ ?_
    simp only [decOpt_snoc hk, decReq_snoc (dec := decStr) rfl hk]
  have hcfg : decConfig (.obj (o ++ [(k, .null)])) = decConfig (.obj o) := by
    simp only [decConfig, Option.bind_eq_bind]
    refine snoc_null _ hk _ ?_
    simp only [decOpt_snoc hk]
  refine ⟨?_, ?_, ?_, fun h => ?_, fun h => ?_, fun h => ?_, fun h => ?_⟩
  · simp only [decUserStep, hcmd, hact]
  · simp only [decUserContainer, hbox]; rfl
  · simp only [decCondition, hcfg]; rfl
  · simp only [decUserJob, Option.bind_eq_bind]
    refine snoc_null _ hk _ ?_
    simp only [decOpt_snoc hk]
    rw [fld_snoc hk, if_neg (Ne.symm h)]
  · simp only [decUserWorkflow, Option.bind_eq_bind]
    refine snoc_null _ hk _ ?_
    simp only [decOpt_snoc hk]
    rw [fld_snoc hk, if_neg (Ne.symm h)]
  · subst h
    constructor
    · simp only [decUserJob, Option.bind_eq_bind]
      refine snoc_fields _ _ _ ?_
      simp only [fld_snoc hk]
      rfl
    · simp only [decUserJob, Option.bind_eq_bind]
      cases hf : fieldsOf ["name", "container", "working-directories", "steps", "on", "depends-on"] (.obj o) with
      | none => rfl
      | some o' =>
        have : o' = o := by
          simp only [fieldsOf] at hf
          split at hf <;> simp_all
        subst this
        simp only [fld_none hk, Option.bind_some]
        cases decOpt decStr (fld o' "name") <;> try rfl
        cases decOpt decUserContainer (fld o' "container") <;> try rfl
        cases decOpt (decList decStr) (fld o' "working-directories") <;> rfl
  · subst h
    constructor
    · simp only [decUserWorkflow, Option.bind_eq_bind]
      refine snoc_fields _ _ _ ?_
      simp only [fld_snoc hk]
      rfl
    · simp only [decUserWorkflow, Option.bind_eq_bind]
      cases hf : fieldsOf ["name", "on", "jobs"] (.obj o) with
      | none => rfl
      | some o' =>
        have : o' = o := by
          simp only [fieldsOf] at hf
          split at hf <;> simp_all
        subst this
        simp only [fld_none hk, Option.bind_some]
        cases decOpt decStr (fld o' "name") <;> try rfl
        cases decOpt decCondition (fld o' "on") <;> rfl

theorem seq_struct {α : Type} {ks : List String} (hk : ks.Nodup) (l : List Json) {body : List (String × Json) → Option α} :
    (fieldsOf ks (.arr l)).bind body = if l.length = ks.length then (fieldsOf ks (.obj (ks.zip l))).bind body else none := by
  by_cases h : l.length = ks.length
  · rw [if_pos h, fieldsOf_once (zip_once hk h), fieldsOf, if_pos h]
  · rw [if_neg h, fieldsOf, if_neg h]; rfl

/-- **C79** A sequence may stand for a mapping: with one value for each key, in the order in which the thing lists its
keys, it is read as that mapping; with more or fewer values it is rejected.  A sequence of eight values for a step is
first tried as a command (container before `run`), then as an action. -/
theorem C79_sequence (x : WithText) (l : List Json) :
    decUserWorkflow x (.arr l) = (if l.length = 3 then decUserWorkflow x (.obj (workflowKeys.zip l)) else none) ∧
    decUserJob x (.arr l) = (if l.length = 6 then decUserJob x (.obj (jobKeys.zip l)) else none) ∧
    decUserStep x (.arr l) = (if l.length = 8 then
      match decUserCommand (.obj (commandKeys.zip l)) with
      | some c => some (.command c)
      | none => (decUserAction x (.obj (actionKeys.zip l))).map .action else none) ∧
    decUserContainer (.arr l) = (if l.length = 3 then
      (decContainer (.obj (containerKeys.zip l))).map .options else none) ∧
    decBranch (.arr l) = (if l.length = 2 then decBranch (.obj (branchKeys.zip l)) else none) := by
  have hc : decUserCommand (.arr l) = if l.length = 8 then decUserCommand (.obj (commandKeys.zip l)) else none := by
    simp only [decUserCommand, Option.bind_eq_bind]
    exact seq_struct (by decide) l
  have ha : decUserAction x (.arr l) = if l.length = 8 then decUserAction x (.obj (actionKeys.zip l)) else none := by
    simp only [decUserAction, Option.bind_eq_bind]
    exact seq_struct (by decide) l
  have hb : decContainer (.arr l) = if l.length = 3 then decContainer (.obj (containerKeys.zip l)) else none := by
    simp only [decContainer, Option.bind_eq_bind]
    exact seq_struct (by decide) l
  refine ⟨?_, ?_, ?_, ?_, ?_⟩
  · simp only [decUserWorkflow, Option.bind_eq_bind]
    exact seq_struct (by decide) l
  · simp only [decUserJob, Option.bind_eq_bind]
    exact seq_struct (by decide) l
  · by_cases h : l.length = 8
    · simp only [decUserStep, hc, ha, if_pos h]
      cases decUserCommand (.obj (commandKeys.zip l)) <;> rfl
    · simp only [decUserStep, hc, ha, if_neg h, Option.map_none]
  · by_cases h : l.length = 3
    · simp only [decUserContainer, hb, if_pos h, decStr]
      cases decContainer (.obj (containerKeys.zip l)) <;> rfl
    · simp only [decUserContainer, hb, if_neg h, decStr, Option.map_none]
  · simp only [decBranch, Option.bind_eq_bind]
    exact seq_struct (by decide) l

/-- **C79** A key may not be given twice: a mapping that repeats a documented key is rejected wherever it occurs.  A step that
repeats `run` or `container` is no command, but it is an action if it says `uses` (and does not repeat a key of an action); the
names of jobs and of environment variables are no documented keys, there the last entry counts. -/
theorem C79_repeated_key (x : WithText) (o : List (String × Json)) :
    (¬ Once workflowKeys o → decUserWorkflow x (.obj o) = none) ∧ (¬ Once jobKeys o → decUserJob x (.obj o) = none) ∧
    (¬ Once commandKeys o → ∀ c, decUserStep x (.obj o) ≠ some (.command c)) ∧
    (¬ Once actionKeys o → ∀ a, decUserStep x (.obj o) ≠ some (.action a)) ∧
    (¬ Once containerKeys o → decUserContainer (.obj o) = none) ∧ (¬ Once conditionKeys o → decCondition (.obj o) = none) ∧
    (¬ Once branchKeys o → decBranch (.obj o) = none) := by
  have h : ∀ {ks}, ¬ Once ks o → fieldsOf ks (.obj o) = none := fun hn => by
    rw [fieldsOf, if_neg fun hh => hn ((onceEach_iff _ o).1 hh)]
  refine ⟨fun hn => ?_, fun hn => ?_, fun hn c => ?_, fun hn a => ?_, fun hn => ?_, fun hn => ?_, fun hn => ?_⟩ <;>
    have hf := h hn
  · simp only [workflowKeys] at hf; simp [decUserWorkflow, hf]
  · simp only [jobKeys] at hf; simp [decUserJob, hf]
  · simp only [commandKeys] at hf; simp [decUserStep, decUserCommand, hf]
  · simp only [actionKeys] at hf
    simp only [decUserStep]
    cases decUserCommand (.obj o) <;> simp [decUserAction, hf]
  · simp only [containerKeys] at hf; simp [decUserContainer, decContainer, hf, decStr]
  · simp only [conditionKeys] at hf; simp [decCondition, decConfig, hf, decList]
  · simp only [branchKeys] at hf; simp [decBranch, hf]

/-! ## Witnesses -/

namespace UserDecodeEx

/-- A `with` value is a text or nothing else. -/
def x : WithText where
  text := fun | .str s => s | _ => ""
  value := .str

theorem x_lawful : WithText.Lawful x := ⟨fun _ => rfl, fun _ => by simp [x]⟩

/-- a workflow with a condition, a container with options, a command and an action, and a dependency -/
def w : UserWorkflow :=
  { name := some "CI", on := some (.config ⟨some ⟨some ["main"], none⟩, none⟩),
    jobs := [
      ("build",
        { container := some (.options { name := "rust", volumes := some ["/a:/b"], securityOpts := none }),
          steps := [
            .command { run := "make", environments := some [("N", .number "NaN"), ("S", .string "x")],
                       continueOnError := some true, timeout := some "10m" },
            .action { uses := "cache", withValue := some "key" }] }),
      ("test",
        { container := some (.name "node"), dependsOn := some ["build"],
          steps := [.command { run := "test", on := some (.event ["push"]), secrets := some ["TOKEN"] }] })] }

example : Writable w := by
  refine ⟨by unfold IsMap; decide, ?_⟩
  intro k j hm s hs
  simp only [w, List.mem_cons, List.not_mem_nil, or_false, Prod.mk.injEq] at hm
  rcases hm with ⟨rfl, rfl⟩ | ⟨rfl, rfl⟩ <;>
    simp only [List.mem_cons, List.not_mem_nil, or_false] at hs
  · rcases hs with rfl | rfl
    · intro e he
      simp only [Option.some.injEq] at he
      subst he
      unfold IsMap; decide
    · intro e he; simp at he
  · subst hs; intro e he; simp at he

example : decUserWorkflow x (encUserWorkflow x w) = some w := by rfl

/-- A step with both `run` and `uses` is a command; with an unreadable container it turns into an action; the
misspelt key is ignored. -/
example :
    decUserStep x (.obj [("uses", .str "cache"), ("run", .str "make"), ("continue-on-eror", .bool true)]) =
      some (.command { run := "make" }) ∧
    decUserStep x (.obj [("uses", .str "cache"), ("run", .str "make"), ("container", .int 5)]) =
      some (.action { uses := "cache" }) ∧
    decUserStep x (.obj [("run", .int 5)]) = none := ⟨rfl, rfl, rfl⟩

/-- Keys in another order and an undocumented one. -/
example : AgreeOn stepKeys [("run", Json.str "make"), ("name", .str "n")]
      [("name", Json.str "n"), ("extra", .null), ("run", .str "make")] := by
  intro k hk
  simp only [stepKeys, List.mem_cons, List.not_mem_nil, or_false] at hk
  rcases hk with rfl | rfl | rfl | rfl | rfl | rfl | rfl | rfl | rfl | rfl <;> simp [List.filter_cons]

example : ∀ v, ¬ Says [("psuh", Json.null)] "push" v := by
  intro v h
  simp [Says] at h

example : "steps" ∉ [("name", Json.str "n")].map Prod.fst := by decide

example : tryFromDocument x "" (encUserWorkflow x w) = .ok w := by rfl

/-- A document; the environment repeats a name. -/
def doc : Json := .obj [("jobs", .obj [("build", .obj [("steps", .arr [
  .obj [("run", .str "make"), ("environments", .obj [("N", .int 5), ("M", .int 6), ("N", .int 7)])], .obj [("uses", .str "cache")]])])])]
example : decUserWorkflow x doc = some { jobs := [("build", { steps := [
    .command { run := "make", environments := some [("N", .number "7"), ("M", .number "6")] }, .action { uses := "cache" }] })] } := by
  decide +kernel
/-- The same job as a sequence of its six values, its container as a sequence of three; and an action whose values are
taken for a command's, its name for the container. -/
example : decUserJob x (.arr [.null, .arr [.str "rust", .null, .null], .null,
      .arr [.obj [("run", .str "make")]], .arr [.null, .arr [.arr [.str "main"], .null]], .null]) =
    some { container := some (.options { name := "rust", volumes := none, securityOpts := none }),
           steps := [.command { run := "make" }],
           on := some (.config ⟨none, some ⟨some ["main"], none⟩⟩) } ∧
    decUserStep x (.arr [.null, .str "cache", .str "key", .null, .null, .null, .null, .null]) =
      some (.command { container := some (.name "cache"), run := "key" }) ∧
    decUserStep x (.arr [.null, .str "cache", .null, .null, .null, .null, .null, .null]) =
      some (.action { uses := "cache" }) ∧
    decUserStep x (.arr [.str "make"]) = none := by decide +kernel
/-- A step that says `run` twice, without and with `uses`. -/
example : ¬ Once commandKeys [("run", .str "a"), ("run", .str "b")] ∧
    decUserStep x (.obj [("run", .str "a"), ("run", .str "b")]) = none ∧
    decUserStep x (.obj [("run", .str "a"), ("run", .str "b"), ("uses", .str "cache")]) = some (.action { uses := "cache" }) := by
  refine ⟨fun h => ?_, by decide +kernel, by decide +kernel⟩
  have := h "run" (by decide)
  simp at this

end UserDecodeEx

end AstroRun
