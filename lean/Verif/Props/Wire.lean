import Verif.Lemmas.Wire
import Verif.Spec.Wire

/-! # C57: messages of the remote protocol survive the wire -/

namespace AstroRun
open Wire

namespace Wire

theorem rt_env {v : EnvironmentVariable} (h : ∀ n, v = .number n → n ≠ "NaN" ∧ n ≠ "inf" ∧ n ≠ "-inf") :
    decEnv (encEnv v) = some v := by
  cases v with
  | number n =>
    obtain ⟨h1, h2, h3⟩ := h n rfl
    have : notFinite n = false := by simp [notFinite, h1, h2, h3]
    simp [encEnv, this, decEnv]
  | _ => rfl

theorem rt_envs {e : EnvironmentVariables} (h : FiniteEnv e) : decMap decEnv (encMap encEnv e) = some e :=
  rt_map (fun p hp => rt_env fun n hn => h.2 p.1 n (by rw [← hn]; exact hp)) h.1

theorem rt_command {c : Command} (h : FiniteEnv c.environments) : decCommand (encCommand c) = some c := by
  simp only [decCommand, encCommand]
  fields
  rw [rt_opt fun a _ => rt_str' a, rt_opt fun a _ => rt_container a, rt_envs h]
  simp

theorem rt_step {s : Step} (h : StepSendable s) : decStep (encStep s) = some s := by
  simp only [decStep, encStep]
  fields
  rw [rt_opt fun a _ => rt_str' a, rt_opt fun a _ => rt_condition a, rt_opt fun a _ => rt_container a, rt_envs h]
  simp

theorem rt_job {j : Job} (h : JobSendable j) : decJob (encJob j) = some j := by
  simp only [decJob, encJob]
  fields
  rw [rt_opt fun a _ => rt_str' a, rt_opt fun a _ => rt_condition a, rt_list fun s hs => rt_step (h s hs)]
  simp

theorem rt_workflow {w : Workflow} (h : WorkflowSendable w) : decWorkflow (encWorkflow w) = some w := by
  simp only [decWorkflow, encWorkflow]
  fields
  rw [rt_opt fun a _ => rt_str' a, rt_opt fun a _ => rt_condition a, rt_map (fun e he => rt_job (h.2 e he)) h.1]
  simp

variable {Pl : Type} {x : Ext Pl}

theorem rt_time (hx : x.Lawful) (t : Time) : RT (encTime x) (decTime x) t :=
  ⟨by simp [decTime, encTime, hx.time], by simp [encTime]⟩

theorem rt_stepResult (hx : x.Lawful) (r : StepRunResult) : decStepResult x (encStepResult x r) = some r := by
  simp only [decStepResult, encStepResult]
  fields
  rw [rt_opt fun a _ => rt_int' a, rt_opt fun a _ => rt_time hx a, rt_opt fun a _ => rt_time hx a]
  simp

theorem rt_jobResult (hx : x.Lawful) (r : JobRunResult) : decJobResult x (encJobResult x r) = some r := by
  simp only [decJobResult, encJobResult]
  fields
  rw [rt_opt fun a _ => rt_time hx a, rt_opt fun a _ => rt_time hx a, rt_list fun s _ => rt_stepResult hx s]
  simp

theorem rt_workflowResult (hx : x.Lawful) {r : WorkflowRunResult} (h : IsMap r.jobs) :
    decWorkflowResult x (encWorkflowResult x r) = some r := by
  simp only [decWorkflowResult, encWorkflowResult]
  fields
  rw [rt_opt fun a _ => rt_time hx a, rt_opt fun a _ => rt_time hx a, rt_map (fun e _ => rt_jobResult hx e.2) h]
  simp

theorem rt_workflowLog (hx : x.Lawful) (l : WorkflowLog) : decWorkflowLog x (encWorkflowLog x l) = some l := by
  simp only [decWorkflowLog, encWorkflowLog]
  fields
  simp [(rt_time hx l.time).back]

theorem rt_stateEvent (e : StateEvent) : decStateEvent (encStateEvent e) = some e := by
  cases e <;> simp only [decStateEvent, encStateEvent] <;> fields <;> simp

theorem rt_signalEvent (e : SignalEvent) : decSignalEvent (encSignalEvent e) = some e := by
  simp only [decSignalEvent, encSignalEvent]
  fields
  simp

theorem rt_runEvent (hx : x.Lawful) {α : Type} {enc : α → Json} {dec : Json → Option α} {e : RunEvent α Pl}
    (h : dec (enc e.source) = some e.source) : decRunEvent x dec (encRunEvent x enc e) = some e := by
  simp only [decRunEvent, encRunEvent]
  fields
  rw [h, rt_opt fun a _ => rt_trigger a, rt_opt fun a _ => ⟨hx.payload a, hx.payloadObject a⟩]
  simp

end Wire

/-- **C57** (partial) Every event decodes from its encoding to the same event, provided numbers in environments are
finite.  Missing for the full claim: the other numbers, see `C57_refuted`. -/
theorem C57_event_partial {Pl : Type} (x : Ext Pl) (hx : x.Lawful) (e : ProtocolEvent Pl) (h : EventSendable e) :
    decEvent x (encEvent x e) = some e := by
  cases e with
  | runStep e => simp [decEvent, encEvent, rt_runEvent hx (rt_step h)]
  | runJob e => simp [decEvent, encEvent, rt_runEvent hx (rt_job h)]
  | runWorkflow e => simp [decEvent, encEvent, rt_runEvent hx (rt_workflow h)]
  | stepCompleted r => simp [decEvent, encEvent, rt_stepResult hx]
  | jobCompleted r => simp [decEvent, encEvent, rt_jobResult hx]
  | workflowCompleted r => simp [decEvent, encEvent, rt_workflowResult hx h]
  | stepLog l => simp [decEvent, encEvent, rt_workflowLog hx]
  | stateChange e => simp [decEvent, encEvent, rt_stateEvent]
  | signal e => simp [decEvent, encEvent, rt_signalEvent]

/-- **C57** (partial) The same for the request to run a step; the signal is not sent, the server's is fresh. -/
theorem C57_context_partial (c : Wire.Context) (h : FiniteEnv c.command.environments) :
    decContext (encContext c) = some { c with signal := {} } := by
  simp only [decContext, encContext]
  fields
  rw [rt_opt fun a _ => rt_trigger a, rt_opt fun a _ => rt_str' a, rt_command h]
  simp

/-- **C57** (partial) The same for the messages of the before-step hook. -/
theorem C57_command_partial (c : Command) (h : FiniteEnv c.environments) : decCommand (encCommand c) = some c :=
  rt_command h

/-- **C57** Every message of the response stream decodes to itself. -/
theorem C57_response (r : Wire.RunResponse) : decResponse (encResponse r) = some r := by
  cases r <;> simp only [decResponse, encResponse] <;> fields <;> simp

/-- **C57** A runner's metadata decode to themselves. -/
theorem C57_metadata (m : RunnerMeta) : decMeta (encMeta m) = some m := by
  simp only [decMeta, encMeta]
  fields

/-- **C57 is false of the code** for a number that is not finite, which a workflow file can contain (`X: .nan`): the
encoding of the request does not decode at all, and the step fails. -/
theorem C57_refuted : ∃ c : Wire.Context, IsMap c.command.environments ∧ decContext (encContext c) = none :=
  ⟨{ id := ⟨"w", "j", 0⟩, command := { id := ⟨"w", "j", 0⟩, environments := [("X", .number "NaN")] } },
    by simp [IsMap], rfl⟩

/-- Some number in the environment is not finite. -/
theorem Wire.envs_refused {e : EnvironmentVariables} {k n : String} (hm : (k, EnvironmentVariable.number n) ∈ e)
    (hn : n = "NaN" ∨ n = "inf" ∨ n = "-inf") : decMap decEnv (encMap encEnv e) = none := by
  simp only [decMap, encMap]
  generalize [] = acc
  induction e generalizing acc with
  | nil => simp at hm
  | cons p e ih =>
    obtain ⟨k', v⟩ := p
    simp only [List.map_cons, decEntries]
    rcases List.mem_cons.1 hm with h | h
    · simp only [Prod.mk.injEq] at h
      have : encEnv v = .null := by
        rw [← h.2, encEnv, if_pos (by rcases hn with rfl | rfl | rfl <;> decide)]
      rw [this]; rfl
    · cases decEnv (encEnv v) with
      | none => rfl
      | some w => exact ih h _

/-- **C57** Which steps can be sent: a command, or the request to run one, is refused by the receiver exactly if its environment
has a number that is not finite. -/
theorem C57_refused_exactly (c : Wire.Context) (h : IsMap c.command.environments) :
    (decContext (encContext c) = none ↔
      ∃ k n, (k, EnvironmentVariable.number n) ∈ c.command.environments ∧ (n = "NaN" ∨ n = "inf" ∨ n = "-inf")) ∧
    (decCommand (encCommand c.command) = none ↔
      ∃ k n, (k, EnvironmentVariable.number n) ∈ c.command.environments ∧ (n = "NaN" ∨ n = "inf" ∨ n = "-inf")) := by
  have fin : (¬ ∃ k n, (k, EnvironmentVariable.number n) ∈ c.command.environments ∧ (n = "NaN" ∨ n = "inf" ∨ n = "-inf")) →
      FiniteEnv c.command.environments := by
    intro hno
    refine ⟨h, fun k n hm => ⟨?_, ?_, ?_⟩⟩ <;> intro e <;> exact hno ⟨k, n, hm, by simp [e]⟩
  have hcmd : (∃ k n, (k, EnvironmentVariable.number n) ∈ c.command.environments ∧ (n = "NaN" ∨ n = "inf" ∨ n = "-inf")) →
      decCommand (encCommand c.command) = none := by
    rintro ⟨k, n, hm, hn⟩
    simp only [decCommand, encCommand]
    fields
    rw [rt_opt fun a _ => rt_str' a, rt_opt fun a _ => rt_container a, envs_refused hm hn]
    simp
  constructor
  · constructor
    · intro hd
      apply Classical.byContradiction
      intro hno
      rw [C57_context_partial c (fin hno)] at hd
      simp at hd
    · intro hex
      simp only [decContext, encContext]
      fields
      rw [hcmd hex]
      simp
  · constructor
    · intro hd
      apply Classical.byContradiction
      intro hno
      rw [C57_command_partial c.command (fin hno)] at hd
      simp at hd
    · exact hcmd

namespace WireEx
/-- Times as decimal numbers, payloads as strings with a type tag. -/
def ext : Ext String where
  showTime t := String.ofList (List.replicate t '|')
  parseTime s := some s.toList.length
  encPayload p := .obj [("Text", .str p)]
  decPayload
    | .obj [("Text", .str p)] => some p
    | _ => none

theorem ext_lawful : ext.Lawful where
  time t := by simp [ext]
  payload p := rfl
  payloadObject p := by simp [ext]

/-- A step with everything set. -/
def step : Step :=
  { id := ⟨"w", "j", 3⟩, name := some "n", on := some (.config ⟨some ⟨some ["main"], none⟩, none⟩),
    container := some ⟨"img", some ["a:b"], none⟩, run := "make", continueOnError := true,
    environments := [("A", .string "NaN"), ("B", .number "1.5"), ("C", .boolean false)], secrets := ["s"],
    timeout := 60000000001 }
end WireEx

example : StepSendable WireEx.step := by
  refine ⟨by unfold IsMap; decide, fun k n hm => ?_⟩
  simp only [WireEx.step, List.mem_cons, Prod.mk.injEq, reduceCtorEq, and_false, List.not_mem_nil, or_false,
    EnvironmentVariable.number.injEq, false_or] at hm
  obtain ⟨_, rfl⟩ := hm
  decide

example : EventSendable (Pl := String)
    (.workflowCompleted ⟨⟨"w"⟩, .failed, some 1, none, [("a", ⟨⟨"w", "a"⟩, .failed, none, some 2, []⟩)]⟩) := by
  simp [EventSendable, IsMap]

end AstroRun
