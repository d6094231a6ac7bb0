import Verif.Props.UserDecode

/-! # C57: fields of a message -/

namespace AstroRun
open AstroRun.Wire AstroRun.Spec

namespace Spec
/-- The fields of the messages and of their parts. -/
def contextFields : List String := ["id", "command", "event", "payload"]
def commandFields : List String :=
  ["id", "name", "container", "run", "continue_on_error", "environments", "secrets", "timeout"]
def triggerFields : List String := ["event", "repo_owner", "repo_name", "pr_number", "sha", "branch", "ref_name"]
def metaFields : List String := ["id", "os", "arch", "support_docker", "support_host", "version", "max_runs"]
def logFields : List String := ["log_type", "message"]
def stepResultFields : List String := ["id", "state", "exit_code", "started_at", "completed_at"]
def jobResultFields : List String := ["id", "state", "started_at", "completed_at", "steps"]
def workflowResultFields : List String := ["id", "state", "started_at", "completed_at", "jobs"]
def runEventFields : List String := ["source", "trigger_event", "payload"]
def signalFields : List String := ["step_id", "signal"]
def stepFields' : List String := ["id", "name", "on", "container", "run", "continue_on_error", "environments", "secrets", "timeout"]
def jobFields' : List String := ["id", "name", "on", "steps", "depends_on", "working_directories"]
def workflowFields' : List String := ["id", "name", "on", "jobs"]
def containerFields' : List String := ["name", "volumes", "security-opts"]
def branchFields' : List String := ["branches", "paths"]
def configFields' : List String := ["push", "pull_request"]
def durationFields' : List String := ["secs", "nanos"]
def workflowLogFields' : List String := ["step_id", "log_type", "message", "time"]

/-- A name: a text, or a mapping from it to `null`. -/
def NamesPair (s : String) (v : Json) : Prop := v = .str s ∨ v = .obj [(s, .null)]
def stateNames : List (String × WorkflowState) :=
  [("pending", .pending), ("queued", .queued), ("in_progress", .inProgress), ("succeeded", .succeeded), ("failed", .failed),
   ("cancelled", .cancelled), ("skipped", .skipped)]
def logTypeNames : List (String × LogType) := [("error", .error), ("log", .log)]
def signalNames : List (String × Signal) := [("Cancel", .cancel), ("Timeout", .timeout)]
end Spec

/-- **C57** A message of a newer version is understood: fields this version does not know have no effect, and the order
of the fields does not matter. -/
theorem C57_fields {Pl : Type} (x : Ext Pl) (o o' : List (String × Json)) :
    (AgreeOn contextFields o o' → decContext (.obj o) = decContext (.obj o')) ∧
    (AgreeOn commandFields o o' → decCommand (.obj o) = decCommand (.obj o')) ∧
    (AgreeOn triggerFields o o' → decTrigger (.obj o) = decTrigger (.obj o')) ∧
    (AgreeOn metaFields o o' → decMeta (.obj o) = decMeta (.obj o')) ∧
    (AgreeOn logFields o o' → decLog (.obj o) = decLog (.obj o')) ∧
    (AgreeOn stepResultFields o o' → decStepResult x (.obj o) = decStepResult x (.obj o')) ∧
    (AgreeOn jobResultFields o o' → decJobResult x (.obj o) = decJobResult x (.obj o')) ∧
    (AgreeOn workflowResultFields o o' → decWorkflowResult x (.obj o) = decWorkflowResult x (.obj o')) ∧
    (AgreeOn runEventFields o o' → ∀ {α : Type} (dec : Json → Option α),
      decRunEvent x dec (.obj o) = decRunEvent x dec (.obj o')) ∧
    (AgreeOn signalFields o o' → decSignalEvent (.obj o) = decSignalEvent (.obj o')) := by
  refine ⟨fun ha => ?_, fun ha => ?_, fun ha => ?_, fun ha => ?_, fun ha => ?_, fun ha => ?_, fun ha => ?_, fun ha => ?_,
    fun ha _ dec => ?_, fun ha => ?_⟩
  · simp only [decContext, Option.bind_eq_bind]
    refine agree_fields (by decide) ha fun hf => ?_
    rw [hf "id" (by decide), hf "command" (by decide), hf "event" (by decide), hf "payload" (by decide)]
  · simp only [decCommand, Option.bind_eq_bind]
    refine agree_fields (by decide) ha fun hf => ?_
    rw [hf "id" (by decide), hf "name" (by decide), hf "container" (by decide), hf "run" (by decide),
      hf "continue_on_error" (by decide), hf "environments" (by decide), hf "secrets" (by decide),
      hf "timeout" (by decide)]
  · simp only [decTrigger, Option.bind_eq_bind]
    refine agree_fields (by decide) ha fun hf => ?_
    rw [hf "event" (by decide), hf "repo_owner" (by decide), hf "repo_name" (by decide), hf "pr_number" (by decide),
      hf "sha" (by decide), hf "branch" (by decide), hf "ref_name" (by decide)]
  · simp only [decMeta, Option.bind_eq_bind]
    refine agree_fields (by decide) ha fun hf => ?_
    rw [hf "id" (by decide), hf "os" (by decide), hf "arch" (by decide), hf "support_docker" (by decide),
      hf "support_host" (by decide), hf "version" (by decide), hf "max_runs" (by decide)]
  · simp only [decLog, Option.bind_eq_bind]
    refine agree_fields (by decide) ha fun hf => ?_
    rw [hf "log_type" (by decide), hf "message" (by decide)]
  · simp only [decStepResult, Option.bind_eq_bind]
    refine agree_fields (by decide) ha fun hf => ?_
    rw [hf "id" (by decide), hf "state" (by decide), hf "exit_code" (by decide), hf "started_at" (by decide),
      hf "completed_at" (by decide)]
  · simp only [decJobResult, Option.bind_eq_bind]
    refine agree_fields (by decide) ha fun hf => ?_
    rw [hf "id" (by decide), hf "state" (by decide), hf "started_at" (by decide), hf "completed_at" (by decide),
      hf "steps" (by decide)]
  · simp only [decWorkflowResult, Option.bind_eq_bind]
    refine agree_fields (by decide) ha fun hf => ?_
    rw [hf "id" (by decide), hf "state" (by decide), hf "started_at" (by decide), hf "completed_at" (by decide),
      hf "jobs" (by decide)]
  · simp only [decRunEvent, Option.bind_eq_bind]
    refine agree_fields (by decide) ha fun hf => ?_
    rw [hf "source" (by decide), hf "trigger_event" (by decide), hf "payload" (by decide)]
  · simp only [decSignalEvent, Option.bind_eq_bind]
    refine agree_fields (by decide) ha fun hf => ?_
    rw [hf "step_id" (by decide), hf "signal" (by decide)]

/-- **C57** A message may also be a sequence of the values of its fields, in this order; it is read as the message with
these fields, and a sequence with a value more or less is rejected. -/
theorem C57_sequence {Pl : Type} (x : Ext Pl) {α : Type} (dec : Json → Option α) (l : List Json) :
    decContext (.arr l) = (if l.length = contextFields.length then decContext (.obj (contextFields.zip l)) else none) ∧
    decCommand (.arr l) = (if l.length = commandFields.length then decCommand (.obj (commandFields.zip l)) else none) ∧
    decTrigger (.arr l) = (if l.length = triggerFields.length then decTrigger (.obj (triggerFields.zip l)) else none) ∧
    decMeta (.arr l) = (if l.length = metaFields.length then decMeta (.obj (metaFields.zip l)) else none) ∧
    decLog (.arr l) = (if l.length = logFields.length then decLog (.obj (logFields.zip l)) else none) ∧
    decStepResult x (.arr l) = (if l.length = stepResultFields.length then decStepResult x (.obj (stepResultFields.zip l)) else none) ∧
    decJobResult x (.arr l) = (if l.length = jobResultFields.length then decJobResult x (.obj (jobResultFields.zip l)) else none) ∧
    decWorkflowResult x (.arr l) = (if l.length = workflowResultFields.length then decWorkflowResult x (.obj (workflowResultFields.zip l)) else none) ∧
    decRunEvent x dec (.arr l) = (if l.length = runEventFields.length then decRunEvent x dec (.obj (runEventFields.zip l)) else none) ∧
    decSignalEvent (.arr l) = (if l.length = signalFields.length then decSignalEvent (.obj (signalFields.zip l)) else none) := by
  refine ⟨?_, ?_, ?_, ?_, ?_, ?_, ?_, ?_, ?_, ?_⟩
  · simp only [decContext, Option.bind_eq_bind]
    exact seq_struct (by decide) l
  · simp only [decCommand, Option.bind_eq_bind]
    exact seq_struct (by decide) l
  · simp only [decTrigger, Option.bind_eq_bind]
    exact seq_struct (by decide) l
  · simp only [decMeta, Option.bind_eq_bind]
    exact seq_struct (by decide) l
  · simp only [decLog, Option.bind_eq_bind]
    exact seq_struct (by decide) l
  · simp only [decStepResult, Option.bind_eq_bind]
    exact seq_struct (by decide) l
  · simp only [decJobResult, Option.bind_eq_bind]
    exact seq_struct (by decide) l
  · simp only [decWorkflowResult, Option.bind_eq_bind]
    exact seq_struct (by decide) l
  · simp only [decRunEvent, Option.bind_eq_bind]
    exact seq_struct (by decide) l
  · simp only [decSignalEvent, Option.bind_eq_bind]
    exact seq_struct (by decide) l

/-- **C57** The same for the parts of messages. -/
theorem C57_sequence_parts {Pl : Type} (x : Ext Pl) (l : List Json) :
    decStep (.arr l) = (if l.length = stepFields'.length then decStep (.obj (stepFields'.zip l)) else none) ∧
    decJob (.arr l) = (if l.length = jobFields'.length then decJob (.obj (jobFields'.zip l)) else none) ∧
    decWorkflow (.arr l) = (if l.length = workflowFields'.length then decWorkflow (.obj (workflowFields'.zip l)) else none) ∧
    decContainer (.arr l) = (if l.length = containerFields'.length then decContainer (.obj (containerFields'.zip l)) else none) ∧
    decBranch (.arr l) = (if l.length = branchFields'.length then decBranch (.obj (branchFields'.zip l)) else none) ∧
    decConfig (.arr l) = (if l.length = configFields'.length then decConfig (.obj (configFields'.zip l)) else none) ∧
    decDuration (.arr l) = (if l.length = durationFields'.length then decDuration (.obj (durationFields'.zip l)) else none) ∧
    decWorkflowLog x (.arr l) = (if l.length = workflowLogFields'.length then decWorkflowLog x (.obj (workflowLogFields'.zip l)) else none) := by
  refine ⟨?_, ?_, ?_, ?_, ?_, ?_, ?_, ?_⟩
  · simp only [decStep, Option.bind_eq_bind]
    exact seq_struct (by decide) l
  · simp only [decJob, Option.bind_eq_bind]
    exact seq_struct (by decide) l
  · simp only [decWorkflow, Option.bind_eq_bind]
    exact seq_struct (by decide) l
  · simp only [decContainer, Option.bind_eq_bind]
    exact seq_struct (by decide) l
  · simp only [decBranch, Option.bind_eq_bind]
    exact seq_struct (by decide) l
  · simp only [decConfig, Option.bind_eq_bind]
    exact seq_struct (by decide) l
  · simp only [decDuration, Option.bind_eq_bind]
    exact seq_struct (by decide) l
  · simp only [decWorkflowLog, Option.bind_eq_bind]
    exact seq_struct (by decide) l

/-- **C57** A value of an enumeration names exactly one variant: a mapping with no entry or with several is rejected, whatever the
entries are; so is, for variants without fields, one from the name to anything but `null`, while `{name: null}` is the name. -/
theorem C57_variants {Pl : Type} (x : Ext Pl) (o : List (String × Json)) :
    (o.length ≠ 1 → decState (.obj o) = none ∧ decLogType (.obj o) = none ∧ decSignal (.obj o) = none ∧ decResult (.obj o) = none ∧
      decStateEvent (.obj o) = none ∧ decEvent x (.obj o) = none ∧ decResponse (.obj o) = none) ∧
    ∀ k v, (v ≠ .null → decState (.obj [(k, v)]) = none ∧ decLogType (.obj [(k, v)]) = none ∧ decSignal (.obj [(k, v)]) = none) ∧
      decState (.obj [(k, .null)]) = decState (.str k) ∧ decLogType (.obj [(k, .null)]) = decLogType (.str k) ∧
      decSignal (.obj [(k, .null)]) = decSignal (.str k) ∧
      (k ≠ "Failed" → decResult (.obj [(k, .null)]) = decResult (.str k) ∧ (v ≠ .null → decResult (.obj [(k, v)]) = none)) := by
  have unit : ∀ k v, v ≠ .null → unitName (.obj [(k, v)]) = none := by
    intro k v hv
    cases v <;> first | rfl | exact absurd rfl hv
  refine ⟨fun h => ?_, fun k v => ⟨fun hv => ?_, rfl, rfl, rfl, fun hk => ⟨?_, fun hv => ?_⟩⟩⟩
  · have hu : unitName (.obj o) = none := by
      match o, h with
      | [], _ => rfl
      | _ :: _ :: _, _ => simp [unitName]
    have hr : decResult (.obj o) = none := by
      match o, h with
      | [], _ => rfl
      | _ :: _ :: _, _ => simp [decResult, unitName]
    refine ⟨by simp [decState, hu], by simp [decLogType, hu], by simp [decSignal, hu], hr, ?_⟩
    match o, h with
    | [], _ => exact ⟨rfl, rfl, rfl⟩
    | _ :: _ :: _, _ => exact ⟨by simp [decStateEvent], by simp [decEvent], by simp [decResponse]⟩
  · simp [decState, decLogType, decSignal, unit k v hv]
  · unfold decResult
    split
    · rename_i h; cases h; exact absurd rfl hk
    · rfl
  · unfold decResult
    split
    · rename_i h; cases h; exact absurd rfl hk
    · rw [unit k v hv]

/-- **C57** The fields of a variant may also be given as a sequence, in the order in which they are declared. -/
theorem C57_variant_sequences (l : List Json) :
    (∀ k ∈ ["WorkflowStateUpdated", "JobStateUpdated", "StepStateUpdated"], decStateEvent (.obj [(k, .arr l)]) =
      (if l.length = 2 then decStateEvent (.obj [(k, .obj (["id", "state"].zip l))]) else none)) ∧
    decResponse (.obj [("Log", .arr l)]) =
      (if l.length = 2 then decResponse (.obj [("Log", .obj (["step_id", "log"].zip l))]) else none) ∧
    decResponse (.obj [("Result", .arr l)]) =
      (if l.length = 2 then decResponse (.obj [("Result", .obj (["step_id", "result"].zip l))]) else none) ∧
    decResult (.obj [("Failed", .arr l)]) =
      (if l.length = 1 then decResult (.obj [("Failed", .obj (["exit_code"].zip l))]) else none) := by
  refine ⟨?_, ?_, ?_, ?_⟩
  · intro k hk
    simp only [List.mem_cons, List.not_mem_nil, or_false] at hk
    rcases hk with rfl | rfl | rfl
    · exact seq_struct (ks := ["id", "state"]) (by decide) l (body := fun o => do
        let i ← (fld o "id").bind decWorkflowId
        let s ← (fld o "state").bind decState
        return StateEvent.workflow i s)
    · exact seq_struct (ks := ["id", "state"]) (by decide) l (body := fun o => do
        let i ← (fld o "id").bind decJobId
        let s ← (fld o "state").bind decState
        return StateEvent.job i s)
    · exact seq_struct (ks := ["id", "state"]) (by decide) l (body := fun o => do
        let i ← (fld o "id").bind decStepId
        let s ← (fld o "state").bind decState
        return StateEvent.step i s)
  · exact seq_struct (ks := ["step_id", "log"]) (by decide) l (body := fun o => do
      let i ← (fld o "step_id").bind decStepId
      let l ← (fld o "log").bind decLog
      return RunResponse.log i l)
  · exact seq_struct (ks := ["step_id", "result"]) (by decide) l (body := fun o => do
      let i ← (fld o "step_id").bind decStepId
      let r ← (fld o "result").bind decResult
      return RunResponse.result i r)
  · exact seq_struct (ks := ["exit_code"]) (by decide) l (body := fun o => ((fld o "exit_code").bind decInt).map RunResult.failed)

example : decStateEvent (.obj [("JobStateUpdated", .arr [encJobId ⟨"w", "j"⟩, .str "failed"])]) = some (.job ⟨"w", "j"⟩ .failed) ∧
    decState (.obj [("failed", .null), ("skipped", .null)]) = none ∧ decState (.obj [("failed", .null)]) = some .failed := ⟨rfl, rfl, rfl⟩

/-- **C57** A map is received exactly if every entry can be read; it then has one entry for every key of the text, and
where the text repeats a key the last entry counts. -/
theorem C57_maps {α : Type} (dec : Json → Option α) (o : List (String × Json)) :
    ((∃ m, decMap dec (.obj o) = some m) ↔ ∀ k j, (k, j) ∈ o → ∃ a, dec j = some a) ∧
    ∀ m, decMap dec (.obj o) = some m →
      IsMap m ∧ ∀ k a, (k, a) ∈ m ↔ ∃ j, LastSays o k j ∧ dec j = some a := by
  obtain ⟨h1, h2⟩ := decEntries_spec (dec := dec) o []
  refine ⟨h1, fun m hm => ?_⟩
  obtain ⟨g1, g2⟩ := h2 m hm
  exact ⟨g1 (by simp [IsMap]), fun k a => by rw [g2]; simp⟩

/-- **C57** The names of states, kinds of log lines, results and signals on the wire: each is written as its name, its name is read
as it and nothing else is. -/
theorem C57_names :
    (∀ x v, decState v = some x ↔ ∃ s, (s, x) ∈ stateNames ∧ NamesPair s v) ∧ (∀ x s, (s, x) ∈ stateNames → encState x = .str s) ∧
    (∀ x v, decLogType v = some x ↔ ∃ s, (s, x) ∈ logTypeNames ∧ NamesPair s v) ∧ (∀ x s, (s, x) ∈ logTypeNames → encLogType x = .str s) ∧
    (∀ x v, decSignal v = some x ↔ ∃ s, (s, x) ∈ signalNames ∧ NamesPair s v) ∧ (∀ x s, (s, x) ∈ signalNames → encSignal x = .str s) ∧
    (∀ v, decResult v = some .succeeded ↔ NamesPair "Succeeded" v) ∧ (∀ v, decResult v = some .cancelled ↔ NamesPair "Cancelled" v) ∧
    encResult .succeeded = .str "Succeeded" ∧ encResult .cancelled = .str "Cancelled" ∧
    (∀ c, encResult (.failed c) = .obj [("Failed", .obj [("exit_code", .int c)])]) := by
  have hname : ∀ s v, NamesPair s v ↔ unitName v = some s := by
    intro s v
    constructor
    · rintro (h | h) <;> subst h <;> rfl
    · intro h
      unfold unitName at h
      split at h
      · cases h; exact .inl rfl
      · cases h; exact .inr rfl
      · cases h
  refine ⟨?_, ?_, ?_, ?_, ?_, ?_, ?_, ?_, rfl, rfl, fun _ => rfl⟩
  · intro x v
    simp only [hname]
    unfold decState
    constructor
    · intro h
      split at h <;> first | (cases h; done) | (rename_i e; cases h; exact ⟨_, by simp [stateNames], e⟩)
    · rintro ⟨s, hs, e⟩
      rw [e]
      simp only [stateNames, List.mem_cons, Prod.mk.injEq, List.not_mem_nil, or_false] at hs
      rcases hs with ⟨rfl, rfl⟩ | ⟨rfl, rfl⟩ | ⟨rfl, rfl⟩ | ⟨rfl, rfl⟩ | ⟨rfl, rfl⟩ | ⟨rfl, rfl⟩ | ⟨rfl, rfl⟩ <;> rfl
  · intro x s hs
    simp only [stateNames, List.mem_cons, Prod.mk.injEq, List.not_mem_nil, or_false] at hs
    rcases hs with ⟨rfl, rfl⟩ | ⟨rfl, rfl⟩ | ⟨rfl, rfl⟩ | ⟨rfl, rfl⟩ | ⟨rfl, rfl⟩ | ⟨rfl, rfl⟩ | ⟨rfl, rfl⟩ <;> rfl
  · intro x v
    simp only [hname]
    unfold decLogType
    constructor
    · intro h
      split at h <;> first | (cases h; done) | (rename_i e; cases h; exact ⟨_, by simp [logTypeNames], e⟩)
    · rintro ⟨s, hs, e⟩
      rw [e]
      simp only [logTypeNames, List.mem_cons, Prod.mk.injEq, List.not_mem_nil, or_false] at hs
      rcases hs with ⟨rfl, rfl⟩ | ⟨rfl, rfl⟩ <;> rfl
  · intro x s hs
    simp only [logTypeNames, List.mem_cons, Prod.mk.injEq, List.not_mem_nil, or_false] at hs
    rcases hs with ⟨rfl, rfl⟩ | ⟨rfl, rfl⟩ <;> rfl
  · intro x v
    simp only [hname]
    unfold decSignal
    constructor
    · intro h
      split at h <;> first | (cases h; done) | (rename_i e; cases h; exact ⟨_, by simp [signalNames], e⟩)
    · rintro ⟨s, hs, e⟩
      rw [e]
      simp only [signalNames, List.mem_cons, Prod.mk.injEq, List.not_mem_nil, or_false] at hs
      rcases hs with ⟨rfl, rfl⟩ | ⟨rfl, rfl⟩ <;> rfl
  · intro x s hs
    simp only [signalNames, List.mem_cons, Prod.mk.injEq, List.not_mem_nil, or_false] at hs
    rcases hs with ⟨rfl, rfl⟩ | ⟨rfl, rfl⟩ <;> rfl
  · intro v
    constructor
    · intro h
      unfold decResult at h
      split at h
      · simp only [bind, Option.bind_eq_some_iff, Option.map_eq_some_iff] at h
        obtain ⟨_, _, _, _, h⟩ := h
        cases h
      · split at h <;> first | (cases h; done) | (rename_i e; exact (hname _ _).2 e)
    · rintro (h | h) <;> subst h <;> rfl
  · intro v
    constructor
    · intro h
      unfold decResult at h
      split at h
      · simp only [bind, Option.bind_eq_some_iff, Option.map_eq_some_iff] at h
        obtain ⟨_, _, _, _, h⟩ := h
        cases h
      · split at h <;> first | (cases h; done) | (rename_i e; exact (hname _ _).2 e)
    · rintro (h | h) <;> subst h <;> rfl

example : decLogType (.obj [("error", .null)]) = some .error ∧ decLogType (.str "Error") = none := ⟨rfl, rfl⟩

namespace WireFieldsEx

/-- A key given twice. -/
example : decMap decEnv (.obj [("A", .int 1), ("B", .str "b"), ("A", .bool true)]) =
    some [("A", .boolean true), ("B", .string "b")] := by rfl

example : AgreeOn logFields [("log_type", Json.str "log"), ("message", .str "m")]
    [("time", .int 3), ("message", .str "m"), ("log_type", Json.str "log")] := by
  intro k hk
  simp only [logFields, List.mem_cons, List.not_mem_nil, or_false] at hk
  rcases hk with rfl | rfl <;> simp
example : decLog (.obj [("time", .int 3), ("message", .str "m"), ("log_type", Json.str "log")]) = some ⟨.log, "m"⟩ := by rfl

example : decLog (.arr [.str "log", .str "m"]) = some ⟨.log, "m"⟩ ∧ decLog (.arr [.str "log"]) = none := ⟨rfl, rfl⟩

end WireFieldsEx

end AstroRun
