import Verif.Model.Wire

/-! # Round trips of the wire format -/

namespace AstroRun.Wire

theorem fld_hit (k : String) (v : Json) (o : List (String × Json)) : fld ((k, v) :: o) k = some v := by
  simp [fld]
theorem fld_skip {k k' : String} (h : (k' == k) = false) (v : Json) (o : List (String × Json)) :
    fld ((k', v) :: o) k = fld o k := by
  simp [fld, h]

@[simp] theorem rt_str (s : String) : decStr (.str s) = some s := rfl
@[simp] theorem rt_bool (b : Bool) : decBool (.bool b) = some b := rfl
@[simp] theorem rt_int (n : Int) : decInt (.int n) = some n := rfl
@[simp] theorem rt_nat (n : Nat) : decNat (.int n) = some n := rfl

/-- Encoded and decoded again, `a` comes back; and it is not encoded as `null`. -/
structure RT {α : Type} (enc : α → Json) (dec : Json → Option α) (a : α) : Prop where
  back : dec (enc a) = some a
  nonnull : enc a ≠ .null

theorem rt_opt {α : Type} {enc : α → Json} {dec : Json → Option α} {o : Option α} (h : ∀ a, o = some a → RT enc dec a) :
    decOpt dec (some (encOpt enc o)) = some o := by
  cases o with
  | none => rfl
  | some a =>
    have := h a rfl
    simp only [encOpt]
    generalize hj : enc a = j at *
    cases j
    · exact absurd hj this.nonnull
    all_goals simp only [decOpt, ← hj, this.back, Option.map_some]

theorem rt_list {α : Type} {enc : α → Json} {dec : Json → Option α} {l : List α} (h : ∀ a ∈ l, dec (enc a) = some a) :
    decList dec (encList enc l) = some l := by
  simp only [decList, encList]
  induction l with
  | nil => rfl
  | cons a l ih =>
    simp only [List.map_cons, decAll]
    rw [h a (by simp), ih fun b hb => h b (List.mem_cons_of_mem _ hb)]
    rfl

theorem put_new {α : Type} {m : List (String × α)} {k : String} {v : α} (h : k ∉ m.map Prod.fst) :
    put m k v = m ++ [(k, v)] := by
  have : m.any (fun e => e.1 == k) = false := by
    rw [List.any_eq_false]
    intro e he hh
    exact h (List.mem_map.2 ⟨e, he, by simpa using hh⟩)
  simp [put, this]

theorem rt_map {α : Type} {enc : α → Json} {dec : Json → Option α} {l : List (String × α)}
    (h : ∀ e ∈ l, dec (enc e.2) = some e.2) (hn : (l.map Prod.fst).Nodup) : decMap dec (encMap enc l) = some l := by
  simp only [decMap, encMap]
  have key : ∀ (l acc : List (String × α)), (∀ e ∈ l, dec (enc e.2) = some e.2) →
      ((acc ++ l).map Prod.fst).Nodup → decEntries dec acc (l.map fun e => (e.1, enc e.2)) = some (acc ++ l) := by
    intro l
    induction l with
    | nil => intro acc _ _; simp [decEntries]
    | cons e l ih =>
      intro acc h hn
      obtain ⟨k, v⟩ := e
      simp only [List.map_cons, decEntries]
      rw [h (k, v) (by simp)]
      have hk : k ∉ acc.map Prod.fst := by
        simp only [List.map_append, List.map_cons, List.nodup_append] at hn
        intro hk
        exact hn.2.2 k hk k (by simp) rfl
      have := ih (acc ++ [(k, v)]) (fun b hb => h b (List.mem_cons_of_mem _ hb)) (by simpa using hn)
      simpa [put_new hk] using this
  simpa using key l [] h (by simpa using hn)

@[simp] theorem rt_strs (l : List String) : decList decStr (encList .str l) = some l := rt_list fun _ _ => rfl
theorem rt_str' (s : String) : RT .str decStr s := ⟨rfl, by simp⟩
theorem rt_strs' (l : List String) : RT (encList .str) (decList decStr) l := ⟨rt_strs l, by simp [encList]⟩
theorem rt_int' (n : Int) : RT .int decInt n := ⟨rfl, by simp⟩

theorem fieldsOf_obj {ks : List String} {o : List (String × Json)} (h : onceEach ks (o.map Prod.fst) = true) :
    fieldsOf ks (.obj o) = some o := by rw [fieldsOf, if_pos h]

/-- Unfold a decoder on an object with literal fields. -/
macro "fields" : tactic => `(tactic|
  (try rw [fieldsOf_obj (by rfl)]
   try simp only [Option.bind_eq_bind, Option.bind_some]
   simp (decide := true) only [fld_hit, fld_skip, Option.bind_some, Option.bind_eq_bind, Option.pure_def, rt_str, rt_bool, rt_int, rt_nat, rt_strs]))

@[simp] theorem rt_workflowId (i : WorkflowId) : decWorkflowId (encWorkflowId i) = some i := rfl
@[simp] theorem rt_jobId (i : JobId) : decJobId (encJobId i) = some i := rfl
@[simp] theorem rt_stepId (i : StepId) : decStepId (encStepId i) = some i := rfl
@[simp] theorem rt_state (s : WorkflowState) : decState (encState s) = some s := by cases s <;> rfl
@[simp] theorem rt_logType (t : LogType) : decLogType (encLogType t) = some t := by cases t <;> rfl
@[simp] theorem rt_signal (s : Signal) : decSignal (encSignal s) = some s := by cases s <;> rfl

@[simp] theorem rt_log (l : Log) : decLog (encLog l) = some l := by
  simp only [decLog, encLog]
  fields
  simp

@[simp] theorem rt_result (r : RunResult) : decResult (encResult r) = some r := by
  cases r with
  | failed c => simp only [encResult, decResult]; fields; simp
  | _ => rfl

theorem rt_trigger (t : TriggerEvent) : RT encTrigger decTrigger t := by
  refine ⟨?_, by simp [encTrigger]⟩
  simp only [decTrigger, encTrigger]
  fields
  rw [rt_opt fun a _ => rt_int' a]
  rfl

theorem rt_branch (b : BranchCondition) : RT encBranch decBranch b := by
  refine ⟨?_, by simp [encBranch]⟩
  simp only [decBranch, encBranch]
  fields
  rw [rt_opt fun a _ => rt_strs' a, rt_opt fun a _ => rt_strs' a]
  rfl

theorem rt_config (c : ConditionConfig) : decConfig (encConfig c) = some c := by
  simp only [decConfig, encConfig]
  fields
  rw [rt_opt fun a _ => rt_branch a, rt_opt fun a _ => rt_branch a]
  rfl

theorem rt_condition (c : Condition) : RT encCondition decCondition c := by
  cases c with
  | event ns => exact ⟨by simp [decCondition, encCondition], by simp [encCondition, encList]⟩
  | config c =>
    refine ⟨?_, by simp [encCondition, encConfig]⟩
    have : decList decStr (encConfig c) = none := rfl
    simp only [decCondition, encCondition, this, rt_config, Option.map_some]

theorem rt_container (c : ContainerOptions) : RT encContainer decContainer c := by
  refine ⟨?_, by simp [encContainer]⟩
  simp only [decContainer, encContainer]
  fields
  rw [rt_opt fun a _ => rt_strs' a, rt_opt fun a _ => rt_strs' a]
  rfl

@[simp] theorem rt_duration (t : Nat) : decDuration (encDuration t) = some t := by
  simp only [decDuration, encDuration]
  fields
  simp only [Option.some.injEq]
  omega

end AstroRun.Wire
