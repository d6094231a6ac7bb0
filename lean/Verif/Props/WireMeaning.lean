import Verif.Spec.WireMeaning
import Verif.Props.WireFields

/-! # C57: what a message means -/

namespace AstroRun
open AstroRun.Wire AstroRun.Spec

namespace WireMeaningLem

theorem reads_whole (v : Json) : Reads decInt Whole v := fun a => by cases v <;> simp [decInt, Whole]
theorem reads_count (v : Json) : Reads decNat Count v := fun a => by
  rcases v with _ | _ | (n | n) | _ | _ | _ | _ <;> simp [decNat, Count]
  omega

theorem unitName_iff (v : Json) (s : String) : unitName v = some s ↔ Named v s := by
  unfold unitName Named
  split <;> simp_all [eq_comm]

theorem reads_workflowId (v : Json) : Reads decWorkflowId MsgWorkflowId v := fun a => by
  obtain ⟨i⟩ := a
  cases v <;> simp [decWorkflowId, decStr, MsgWorkflowId]

theorem reads_jobId (v : Json) : Reads decJobId MsgJobId v := fun a => by
  obtain ⟨w, j⟩ := a
  unfold decJobId MsgJobId
  split
  · rename_i w' j'
    cases w' <;> cases j' <;> simp [decStr]
  · rename_i h
    simp only [reduceCtorEq, false_iff]
    rintro rfl
    exact h _ _ rfl

theorem reads_stepId (v : Json) : Reads decStepId MsgStepId v := fun a => by
  obtain ⟨w, j, n⟩ := a
  unfold decStepId MsgStepId
  split
  · rename_i w' j' n'
    rw [show (Json.arr [w', j', n'] = .arr [.str w, .str j, .int (Int.ofNat n)]) ↔ (decStr w' = some w ∧ decStr j' = some j ∧ decNat n' = some n) from by
      rw [reads_text, reads_text, reads_count]; simp [Text, Count]]
    cases decStr w' <;> cases decStr j' <;> cases decNat n' <;> simp
  · rename_i h
    simp only [reduceCtorEq, false_iff]
    rintro rfl
    exact h _ _ _ rfl

theorem reads_state (v : Json) : Reads decState MsgState v := fun a => by
  unfold MsgState decState
  rw [← unitName_iff]
  cases h : unitName v with
  | none => simp
  | some s => split <;> cases a <;> simp_all [stateName]

theorem reads_logType (v : Json) : Reads decLogType MsgLogType v := fun a => by
  unfold MsgLogType decLogType
  rw [← unitName_iff]
  cases h : unitName v with
  | none => simp
  | some s => split <;> cases a <;> simp_all [logTypeName]

theorem reads_signal (v : Json) : Reads decSignal MsgSignal v := fun a => by
  unfold MsgSignal decSignal
  rw [← unitName_iff]
  cases h : unitName v with
  | none => simp
  | some s => split <;> cases a <;> simp_all [signalName]

theorem reads_box (v : Json) : Reads decContainer MsgContainer v := fun c => reads_options v c

theorem reads_exit (v : Json) (c : Int) :
    ((fieldsOf ["exit_code"] v).bind fun o => (fld o "exit_code").bind decInt) = some c ↔ MsgExit v c := by
  simp only [MsgExit]
  refine struct_reads ?_ v c fun o hv => ?_
  · decide
  exact req_reads hv "exit_code" (by decide) reads_whole c

theorem reads_duration (v : Json) : Reads decDuration MsgDuration v := fun a => by
  have := struct_reads (ks := ["secs", "nanos"]) (body := fun o => do
      let s ← (fld o "secs").bind decNat
      let n ← (fld o "nanos").bind decNat
      return s * 1000000000 + n) (P := fun o => ∃ s n, Required o "secs" Count s ∧ Required o "nanos" Count n ∧ a = s * 1000000000 + n)
      (by decide) v a fun o hv => by
    simp only [← req_reads hv "secs" (by decide) reads_count, ← req_reads hv "nanos" (by decide) reads_count,
      Option.bind_eq_bind, Option.pure_def]
    generalize (fld o "secs").bind decNat = r1
    generalize (fld o "nanos").bind decNat = r2
    cases r1 <;> cases r2 <;> simp [eq_comm]
  rw [show MsgDuration v a ↔ ∃ o, Written ["secs", "nanos"] v o ∧ ∃ s n, Required o "secs" Count s ∧ Required o "nanos" Count n ∧ a = s * 1000000000 + n from by
    simp only [MsgDuration]
    exact ⟨fun ⟨o, s, n, h, g⟩ => ⟨o, h, s, n, g⟩, fun ⟨o, h, s, n, g⟩ => ⟨o, s, n, h, g⟩⟩]
  exact this

theorem reads_time {Pl : Type} (x : Ext Pl) (v : Json) : Reads (decTime x) (MsgTime x) v := fun a => by
  cases v <;> simp [decTime, MsgTime]

theorem reads_log (v : Json) : Reads decLog MsgLog v := fun a => by
  simp only [decLog, MsgLog, Option.bind_eq_bind, Option.pure_def]
  refine struct_reads ?_ v a fun o hv => ?_
  · decide
  simp only [← req_reads hv "log_type" (by decide) reads_logType,
    ← req_reads hv "message" (by decide) reads_text]
  generalize (fld o "log_type").bind _ = r1
  generalize (fld o "message").bind _ = r2
  cases a
  rcases r1 with _ | r1 <;> rcases r2 with _ | r2 <;> simp

theorem reads_trigger (v : Json) : Reads decTrigger MsgTrigger v := fun a => by
  simp only [decTrigger, MsgTrigger, Option.bind_eq_bind, Option.pure_def]
  refine struct_reads ?_ v a fun o hv => ?_
  · decide
  simp only [← req_reads hv "event" (by decide) reads_text,
    ← req_reads hv "repo_owner" (by decide) reads_text,
    ← req_reads hv "repo_name" (by decide) reads_text,
    ← opt_reads hv "pr_number" (by decide) reads_whole,
    ← req_reads hv "sha" (by decide) reads_text,
    ← req_reads hv "branch" (by decide) reads_text,
    ← req_reads hv "ref_name" (by decide) reads_text]
  generalize (fld o "event").bind _ = r1
  generalize (fld o "repo_owner").bind _ = r2
  generalize (fld o "repo_name").bind _ = r3
  generalize decOpt _ (fld o "pr_number") = r4
  generalize (fld o "sha").bind _ = r5
  generalize (fld o "branch").bind _ = r6
  generalize (fld o "ref_name").bind _ = r7
  cases a
  rcases r1 with _ | r1 <;> rcases r2 with _ | r2 <;> rcases r3 with _ | r3 <;> rcases r4 with _ | r4 <;> rcases r5 with _ | r5 <;> rcases r6 with _ | r6 <;> rcases r7 with _ | r7 <;> simp

theorem reads_command' (v : Json) : Reads decCommand MsgCommand v := fun a => by
  simp only [decCommand, MsgCommand, Option.bind_eq_bind, Option.pure_def]
  refine struct_reads ?_ v a fun o hv => ?_
  · decide
  simp only [← req_reads hv "id" (by decide) reads_stepId,
    ← opt_reads hv "name" (by decide) reads_text,
    ← opt_reads hv "container" (by decide) reads_box,
    ← req_reads hv "run" (by decide) reads_text,
    ← req_reads hv "continue_on_error" (by decide) reads_truth,
    ← req_reads hv "environments" (by decide) reads_envs,
    ← req_reads hv "secrets" (by decide) reads_texts,
    ← req_reads hv "timeout" (by decide) reads_duration]
  generalize (fld o "id").bind _ = r1
  generalize decOpt _ (fld o "name") = r2
  generalize decOpt _ (fld o "container") = r3
  generalize (fld o "run").bind _ = r4
  generalize (fld o "continue_on_error").bind _ = r5
  generalize (fld o "environments").bind _ = r6
  generalize (fld o "secrets").bind _ = r7
  generalize (fld o "timeout").bind _ = r8
  cases a
  rcases r1 with _ | r1 <;> rcases r2 with _ | r2 <;> rcases r3 with _ | r3 <;> rcases r4 with _ | r4 <;> rcases r5 with _ | r5 <;> rcases r6 with _ | r6 <;> rcases r7 with _ | r7 <;> rcases r8 with _ | r8 <;> simp

theorem reads_step' (v : Json) : Reads decStep MsgStep v := fun a => by
  simp only [decStep, MsgStep, Option.bind_eq_bind, Option.pure_def]
  refine struct_reads ?_ v a fun o hv => ?_
  · decide
  simp only [← req_reads hv "id" (by decide) reads_stepId,
    ← opt_reads hv "name" (by decide) reads_text,
    ← opt_reads hv "on" (by decide) reads_condition,
    ← opt_reads hv "container" (by decide) reads_box,
    ← req_reads hv "run" (by decide) reads_text,
    ← req_reads hv "continue_on_error" (by decide) reads_truth,
    ← req_reads hv "environments" (by decide) reads_envs,
    ← req_reads hv "secrets" (by decide) reads_texts,
    ← req_reads hv "timeout" (by decide) reads_duration]
  generalize (fld o "id").bind _ = r1
  generalize decOpt _ (fld o "name") = r2
  generalize decOpt _ (fld o "on") = r3
  generalize decOpt _ (fld o "container") = r4
  generalize (fld o "run").bind _ = r5
  generalize (fld o "continue_on_error").bind _ = r6
  generalize (fld o "environments").bind _ = r7
  generalize (fld o "secrets").bind _ = r8
  generalize (fld o "timeout").bind _ = r9
  cases a
  rcases r1 with _ | r1 <;> rcases r2 with _ | r2 <;> rcases r3 with _ | r3 <;> rcases r4 with _ | r4 <;> rcases r5 with _ | r5 <;> rcases r6 with _ | r6 <;> rcases r7 with _ | r7 <;> rcases r8 with _ | r8 <;> rcases r9 with _ | r9 <;> simp

theorem reads_job' (v : Json) : Reads decJob MsgJob v := fun a => by
  simp only [decJob, MsgJob, Option.bind_eq_bind, Option.pure_def]
  refine struct_reads ?_ v a fun o hv => ?_
  · decide
  simp only [← req_reads hv "id" (by decide) reads_jobId,
    ← opt_reads hv "name" (by decide) reads_text,
    ← opt_reads hv "on" (by decide) reads_condition,
    ← req_reads hv "steps" (by decide) (reads_sequence (reads_step')),
    ← req_reads hv "depends_on" (by decide) reads_texts,
    ← req_reads hv "working_directories" (by decide) reads_texts]
  generalize (fld o "id").bind _ = r1
  generalize decOpt _ (fld o "name") = r2
  generalize decOpt _ (fld o "on") = r3
  generalize (fld o "steps").bind _ = r4
  generalize (fld o "depends_on").bind _ = r5
  generalize (fld o "working_directories").bind _ = r6
  cases a
  rcases r1 with _ | r1 <;> rcases r2 with _ | r2 <;> rcases r3 with _ | r3 <;> rcases r4 with _ | r4 <;> rcases r5 with _ | r5 <;> rcases r6 with _ | r6 <;> simp

theorem reads_workflow' (v : Json) : Reads decWorkflow MsgWorkflow v := fun a => by
  simp only [decWorkflow, MsgWorkflow, Option.bind_eq_bind, Option.pure_def]
  refine struct_reads ?_ v a fun o hv => ?_
  · decide
  simp only [← req_reads hv "id" (by decide) reads_workflowId,
    ← opt_reads hv "name" (by decide) reads_text,
    ← opt_reads hv "on" (by decide) reads_condition,
    ← req_reads hv "jobs" (by decide) (reads_mapping (reads_job'))]
  generalize (fld o "id").bind _ = r1
  generalize decOpt _ (fld o "name") = r2
  generalize decOpt _ (fld o "on") = r3
  generalize (fld o "jobs").bind _ = r4
  cases a
  rcases r1 with _ | r1 <;> rcases r2 with _ | r2 <;> rcases r3 with _ | r3 <;> rcases r4 with _ | r4 <;> simp

theorem reads_stepResult {Pl : Type} (x : Ext Pl) (v : Json) : Reads (decStepResult x) (MsgStepResult x) v := fun a => by
  simp only [decStepResult, MsgStepResult, Option.bind_eq_bind, Option.pure_def]
  refine struct_reads ?_ v a fun o hv => ?_
  · decide
  simp only [← req_reads hv "id" (by decide) reads_stepId,
    ← req_reads hv "state" (by decide) reads_state,
    ← opt_reads hv "exit_code" (by decide) reads_whole,
    ← opt_reads hv "started_at" (by decide) (reads_time x),
    ← opt_reads hv "completed_at" (by decide) (reads_time x)]
  generalize (fld o "id").bind _ = r1
  generalize (fld o "state").bind _ = r2
  generalize decOpt _ (fld o "exit_code") = r3
  generalize decOpt _ (fld o "started_at") = r4
  generalize decOpt _ (fld o "completed_at") = r5
  cases a
  rcases r1 with _ | r1 <;> rcases r2 with _ | r2 <;> rcases r3 with _ | r3 <;> rcases r4 with _ | r4 <;> rcases r5 with _ | r5 <;> simp

theorem reads_jobResult {Pl : Type} (x : Ext Pl) (v : Json) : Reads (decJobResult x) (MsgJobResult x) v := fun a => by
  simp only [decJobResult, MsgJobResult, Option.bind_eq_bind, Option.pure_def]
  refine struct_reads ?_ v a fun o hv => ?_
  · decide
  simp only [← req_reads hv "id" (by decide) reads_jobId,
    ← req_reads hv "state" (by decide) reads_state,
    ← opt_reads hv "started_at" (by decide) (reads_time x),
    ← opt_reads hv "completed_at" (by decide) (reads_time x),
    ← req_reads hv "steps" (by decide) (reads_sequence (reads_stepResult x))]
  generalize (fld o "id").bind _ = r1
  generalize (fld o "state").bind _ = r2
  generalize decOpt _ (fld o "started_at") = r3
  generalize decOpt _ (fld o "completed_at") = r4
  generalize (fld o "steps").bind _ = r5
  cases a
  rcases r1 with _ | r1 <;> rcases r2 with _ | r2 <;> rcases r3 with _ | r3 <;> rcases r4 with _ | r4 <;> rcases r5 with _ | r5 <;> simp

theorem reads_workflowResult {Pl : Type} (x : Ext Pl) (v : Json) : Reads (decWorkflowResult x) (MsgWorkflowResult x) v := fun a => by
  simp only [decWorkflowResult, MsgWorkflowResult, Option.bind_eq_bind, Option.pure_def]
  refine struct_reads ?_ v a fun o hv => ?_
  · decide
  simp only [← req_reads hv "id" (by decide) reads_workflowId,
    ← req_reads hv "state" (by decide) reads_state,
    ← opt_reads hv "started_at" (by decide) (reads_time x),
    ← opt_reads hv "completed_at" (by decide) (reads_time x),
    ← req_reads hv "jobs" (by decide) (reads_mapping (reads_jobResult x))]
  generalize (fld o "id").bind _ = r1
  generalize (fld o "state").bind _ = r2
  generalize decOpt _ (fld o "started_at") = r3
  generalize decOpt _ (fld o "completed_at") = r4
  generalize (fld o "jobs").bind _ = r5
  cases a
  rcases r1 with _ | r1 <;> rcases r2 with _ | r2 <;> rcases r3 with _ | r3 <;> rcases r4 with _ | r4 <;> rcases r5 with _ | r5 <;> simp

theorem reads_workflowLog {Pl : Type} (x : Ext Pl) (v : Json) : Reads (decWorkflowLog x) (MsgWorkflowLog x) v := fun a => by
  simp only [decWorkflowLog, MsgWorkflowLog, Option.bind_eq_bind, Option.pure_def]
  refine struct_reads ?_ v a fun o hv => ?_
  · decide
  simp only [← req_reads hv "step_id" (by decide) reads_stepId,
    ← req_reads hv "log_type" (by decide) reads_logType,
    ← req_reads hv "message" (by decide) reads_text,
    ← req_reads hv "time" (by decide) (reads_time x)]
  generalize (fld o "step_id").bind _ = r1
  generalize (fld o "log_type").bind _ = r2
  generalize (fld o "message").bind _ = r3
  generalize (fld o "time").bind _ = r4
  cases a
  rcases r1 with _ | r1 <;> rcases r2 with _ | r2 <;> rcases r3 with _ | r3 <;> rcases r4 with _ | r4 <;> simp

theorem reads_signalEvent (v : Json) : Reads decSignalEvent MsgSignalEvent v := fun a => by
  simp only [decSignalEvent, MsgSignalEvent, Option.bind_eq_bind, Option.pure_def]
  refine struct_reads ?_ v a fun o hv => ?_
  · decide
  simp only [← req_reads hv "step_id" (by decide) reads_stepId,
    ← req_reads hv "signal" (by decide) reads_signal]
  generalize (fld o "step_id").bind _ = r1
  generalize (fld o "signal").bind _ = r2
  cases a
  rcases r1 with _ | r1 <;> rcases r2 with _ | r2 <;> simp

theorem reads_meta (v : Json) : Reads decMeta MsgMeta v := fun a => by
  simp only [decMeta, MsgMeta, Option.bind_eq_bind, Option.pure_def]
  refine struct_reads ?_ v a fun o hv => ?_
  · decide
  simp only [← req_reads hv "id" (by decide) reads_text,
    ← req_reads hv "os" (by decide) reads_text,
    ← req_reads hv "arch" (by decide) reads_text,
    ← req_reads hv "support_docker" (by decide) reads_truth,
    ← req_reads hv "support_host" (by decide) reads_truth,
    ← req_reads hv "version" (by decide) reads_text,
    ← req_reads hv "max_runs" (by decide) reads_whole]
  generalize (fld o "id").bind _ = r1
  generalize (fld o "os").bind _ = r2
  generalize (fld o "arch").bind _ = r3
  generalize (fld o "support_docker").bind _ = r4
  generalize (fld o "support_host").bind _ = r5
  generalize (fld o "version").bind _ = r6
  generalize (fld o "max_runs").bind _ = r7
  cases a
  rcases r1 with _ | r1 <;> rcases r2 with _ | r2 <;> rcases r3 with _ | r3 <;> rcases r4 with _ | r4 <;> rcases r5 with _ | r5 <;> rcases r6 with _ | r6 <;> rcases r7 with _ | r7 <;> simp

theorem reads_context (v : Json) : Reads decContext MsgContext v := fun a => by
  have := struct_reads (ks := ["id", "command", "event", "payload"]) (body := fun o => do
      let id ← (fld o "id").bind decStepId
      let command ← (fld o "command").bind decCommand
      let event ← decOpt decTrigger (fld o "event")
      let payload ← decOpt decStr (fld o "payload")
      return ({ id, signal := {}, command, event, payload } : Wire.Context)) (P := fun o => a.signal = {} ∧
        Required o "id" MsgStepId a.id ∧ Required o "command" MsgCommand a.command ∧ Optional o "event" MsgTrigger a.event ∧
        Optional o "payload" Text a.payload)
      (by decide) v a fun o hv => by
    simp only [← req_reads hv "id" (by decide) reads_stepId,
      ← req_reads hv "command" (by decide) reads_command',
      ← opt_reads hv "event" (by decide) reads_trigger,
      ← opt_reads hv "payload" (by decide) reads_text, Option.bind_eq_bind, Option.pure_def]
    generalize (fld o "id").bind _ = r1
    generalize (fld o "command").bind _ = r2
    generalize decOpt _ (fld o "event") = r3
    generalize decOpt _ (fld o "payload") = r4
    obtain ⟨a1, a2, a3, a4, a5⟩ := a
    cases r1 <;> cases r2 <;> cases r3 <;> cases r4 <;> simp
    constructor
    · rintro ⟨rfl, rfl, rfl, rfl, rfl⟩; simp
    · rintro ⟨rfl, rfl, rfl, rfl, rfl⟩; simp
  refine Iff.trans this ?_
  simp only [MsgContext]
  exact ⟨fun ⟨o, h, g, r⟩ => ⟨g, o, h, r⟩, fun ⟨g, o, h, r⟩ => ⟨o, h, g, r⟩⟩

theorem reads_runEvent {Pl : Type} (x : Ext Pl) {α : Type} {dec : Json → Option α} {R : Json → α → Prop} (v : Json)
    (hd : ∀ u, Reads dec R u) : Reads (decRunEvent x dec) (MsgRunEvent x R) v := fun a => by
  simp only [decRunEvent, MsgRunEvent, Option.bind_eq_bind, Option.pure_def]
  refine struct_reads ?_ v a fun o hv => ?_
  · decide
  simp only [← req_reads hv "source" (by decide) hd,
    ← opt_reads hv "trigger_event" (by decide) reads_trigger,
    ← opt_reads (dec := x.decPayload) (R := fun v p => x.decPayload v = some p) hv "payload" (by decide) (fun v a => Iff.rfl)]
  generalize (fld o "source").bind _ = r1
  generalize decOpt _ (fld o "trigger_event") = r2
  generalize decOpt _ (fld o "payload") = r3
  cases a
  cases r1 <;> cases r2 <;> cases r3 <;> simp

theorem reads_update {ι : Type} {dec : Json → Option ι} {R : Json → ι → Prop} (hd : ∀ u, Reads dec R u) (v : Json)
    {β : Type} (mk : ι → WorkflowState → β) (hm : ∀ i s i' s', mk i s = mk i' s' → i = i' ∧ s = s') (i : ι) (s : WorkflowState) :
    ((fieldsOf ["id", "state"] v).bind fun o => ((fld o "id").bind dec).bind fun i => ((fld o "state").bind decState).bind fun s =>
      some (mk i s)) = some (mk i s) ↔ MsgUpdate R v (i, s) := by
  simp only [MsgUpdate]
  refine struct_reads ?_ v _ fun o hv => ?_
  · decide
  simp only [← req_reads hv "id" (by decide) hd, ← req_reads hv "state" (by decide) reads_state]
  generalize (fld o "id").bind _ = r1
  generalize (fld o "state").bind _ = r2
  cases r1 <;> cases r2 <;> simp
  exact ⟨fun h => hm _ _ _ _ h, fun h => by rw [h.1, h.2]⟩

theorem update_only {ι : Type} {dec : Json → Option ι} {v : Json} {β : Type} {mk : ι → WorkflowState → β} {b : β}
    (h : ((fieldsOf ["id", "state"] v).bind fun o => ((fld o "id").bind dec).bind fun i => ((fld o "state").bind decState).bind fun s =>
      some (mk i s)) = some b) : ∃ i s, b = mk i s := by
  simp only [Option.bind_eq_some_iff] at h
  obtain ⟨o, -, i, -, s, -, h⟩ := h
  exact ⟨i, s, (Option.some.inj h).symm⟩

theorem reads_stateEvent (v : Json) : Reads decStateEvent MsgStateEvent v := fun a => by
  unfold decStateEvent
  simp only [Option.bind_eq_bind, Option.pure_def]
  split
  · rename_i u
    cases a with
    | workflow i s =>
      rw [reads_update reads_workflowId u StateEvent.workflow (by simp)]
      simp [MsgStateEvent, Tagged]
    | _ =>
      simp only [MsgStateEvent, Tagged, Json.obj.injEq, List.cons.injEq, Prod.mk.injEq]
      constructor
      · intro h; obtain ⟨_, _, h⟩ := update_only h; cases h
      · simp
  · rename_i u
    cases a with
    | job i s =>
      rw [reads_update reads_jobId u StateEvent.job (by simp)]
      simp [MsgStateEvent, Tagged]
    | _ =>
      simp only [MsgStateEvent, Tagged, Json.obj.injEq, List.cons.injEq, Prod.mk.injEq]
      constructor
      · intro h; obtain ⟨_, _, h⟩ := update_only h; cases h
      · simp
  · rename_i u
    cases a with
    | step i s =>
      rw [reads_update reads_stepId u StateEvent.step (by simp)]
      simp [MsgStateEvent, Tagged]
    | _ =>
      simp only [MsgStateEvent, Tagged, Json.obj.injEq, List.cons.injEq, Prod.mk.injEq]
      constructor
      · intro h; obtain ⟨_, _, h⟩ := update_only h; cases h
      · simp
  · rename_i h1 h2 h3
    simp only [reduceCtorEq, false_iff]
    cases a <;> simp only [MsgStateEvent, Tagged, not_exists, not_and] <;> rintro u rfl <;> first
      | exact absurd rfl (h1 u)
      | exact absurd rfl (h2 u)
      | exact absurd rfl (h3 u)

theorem reads_result (v : Json) : Reads decResult MsgResult v := fun a => by
  unfold decResult
  simp only [Option.bind_eq_bind]
  split
  · rename_i u
    have he := reads_exit u
    cases a with
    | failed c =>
      simp only [MsgResult, Tagged, Json.obj.injEq, List.cons.injEq, Prod.mk.injEq, true_and, and_true, exists_eq_left', ← he c]
      cases fieldsOf ["exit_code"] u with
      | none => simp
      | some o => simp only [Option.bind_some]; cases (fld o "exit_code").bind decInt <;> simp
    | _ =>
      simp only [MsgResult, Named, Json.obj.injEq, List.cons.injEq, Prod.mk.injEq]
      constructor
      · intro h
        cases hf : fieldsOf ["exit_code"] u with
        | none => simp [hf] at h
        | some o =>
          rw [hf, Option.bind_some] at h
          cases hg : (fld o "exit_code").bind decInt <;> simp [hg] at h
      · simp
  · rename_i h
    have key : ∀ s, unitName v = some s ↔ Named v s := unitName_iff v
    cases a with
    | failed c =>
      simp only [MsgResult, Tagged]
      constructor
      · intro g; split at g <;> simp at g
      · rintro ⟨u, rfl, -⟩; exact absurd rfl (h u)
    | succeeded =>
      simp only [MsgResult, ← key]
      clear key
      split <;> simp_all
    | cancelled =>
      simp only [MsgResult, ← key]
      clear key
      split <;> simp_all

theorem reads_response (v : Json) : Reads decResponse MsgResponse v := fun a => by
  unfold decResponse
  simp only [Option.bind_eq_bind, Option.pure_def]
  split
  · rename_i u
    have key := fun P h => struct_reads (ks := ["step_id", "log"]) (body := fun o => ((fld o "step_id").bind decStepId).bind fun i =>
      ((fld o "log").bind decLog).bind fun l => some (RunResponse.log i l)) (P := P) (by decide) u a h
    cases a with
    | log i l =>
      rw [key (fun o => Required o "step_id" MsgStepId i ∧ Required o "log" MsgLog l) fun o hv => by
        simp only [← req_reads hv "step_id" (by decide) reads_stepId, ← req_reads hv "log" (by decide) reads_log]
        generalize (fld o "step_id").bind _ = r1
        generalize (fld o "log").bind _ = r2
        cases r1 <;> cases r2 <;> simp]
      simp [MsgResponse]
    | result i r =>
      simp only [MsgResponse, Json.obj.injEq, List.cons.injEq, Prod.mk.injEq]
      constructor
      · intro h
        simp only [Option.bind_eq_some_iff] at h
        obtain ⟨o, -, i, -, s, -, h⟩ := h
        cases h
      · simp
  · rename_i u
    have key := fun P h => struct_reads (ks := ["step_id", "result"]) (body := fun o => ((fld o "step_id").bind decStepId).bind fun i =>
      ((fld o "result").bind decResult).bind fun l => some (RunResponse.result i l)) (P := P) (by decide) u a h
    cases a with
    | result i l =>
      rw [key (fun o => Required o "step_id" MsgStepId i ∧ Required o "result" MsgResult l) fun o hv => by
        simp only [← req_reads hv "step_id" (by decide) reads_stepId, ← req_reads hv "result" (by decide) reads_result]
        generalize (fld o "step_id").bind _ = r1
        generalize (fld o "result").bind _ = r2
        cases r1 <;> cases r2 <;> simp]
      simp [MsgResponse]
    | log i r =>
      simp only [MsgResponse, Json.obj.injEq, List.cons.injEq, Prod.mk.injEq]
      constructor
      · intro h
        simp only [Option.bind_eq_some_iff] at h
        obtain ⟨o, -, i, -, s, -, h⟩ := h
        cases h
      · simp
  · rename_i h1 h2
    simp only [reduceCtorEq, false_iff]
    cases a <;> simp only [MsgResponse, not_exists, not_and] <;> rintro u o rfl <;> first
      | exact absurd rfl (h1 u)
      | exact absurd rfl (h2 u)

theorem reads_event {Pl : Type} (x : Ext Pl) (v : Json) : Reads (decEvent x) (MsgEvent x) v := fun a => by
  unfold decEvent
  split
  case h_10 h1 h2 h3 h4 h5 h6 h7 h8 h9 =>
    simp only [reduceCtorEq, false_iff]
    cases a <;> simp only [MsgEvent, Tagged, not_exists, not_and] <;> rintro u rfl <;> first
      | exact absurd rfl (h1 u)
      | exact absurd rfl (h2 u)
      | exact absurd rfl (h3 u)
      | exact absurd rfl (h4 u)
      | exact absurd rfl (h5 u)
      | exact absurd rfl (h6 u)
      | exact absurd rfl (h7 u)
      | exact absurd rfl (h8 u)
      | exact absurd rfl (h9 u)
  all_goals
    rename_i u
    have e1 := reads_runEvent x u reads_step'
    have e2 := reads_runEvent x u reads_job'
    have e3 := reads_runEvent x u reads_workflow'
    have e4 := reads_stepResult x u
    have e5 := reads_jobResult x u
    have e6 := reads_workflowResult x u
    have e7 := reads_workflowLog x u
    have e8 := reads_stateEvent u
    have e9 := reads_signalEvent u
    simp only [Option.map_eq_some_iff]
    cases a <;> simp [MsgEvent, Tagged] <;> first
      | exact e1 _
      | exact e2 _
      | exact e3 _
      | exact e4 _
      | exact e5 _
      | exact e6 _
      | exact e7 _
      | exact e8 _
      | exact e9 _

end WireMeaningLem
open WireMeaningLem

/-- **C57** What a message means.  A value is read as a message exactly when `Spec/WireMeaning` says that this is what it means:
every value ends up in the field it was written for under the published name, a field that must be there may not be missing, a
field that may be missing is empty without it, no field may be repeated, and nothing else is accepted. -/
theorem C57_meaning {Pl : Type} (x : Ext Pl) (v : Json) :
    (∀ e, decEvent x v = some e ↔ MsgEvent x v e) ∧ (∀ r, decResponse v = some r ↔ MsgResponse v r) ∧
    (∀ c, decContext v = some c ↔ MsgContext v c) ∧ (∀ c, decCommand v = some c ↔ MsgCommand v c) ∧
    (∀ m, decMeta v = some m ↔ MsgMeta v m) ∧ (∀ r, decResult v = some r ↔ MsgResult v r) :=
  ⟨reads_event x v, reads_response v, reads_context v, reads_command' v, reads_meta v, reads_result v⟩

namespace WireMeaningEx

/-- The names, the order and the unknown field of a real answer; the same with a field given twice. -/
example :
    decResponse (.obj [("Log", .obj [("log", .obj [("message", .str "hi"), ("log_type", .str "error"), ("level", .int 3)]),
      ("step_id", .arr [.str "w", .str "j", .int 2])])]) = some (.log ⟨"w", "j", 2⟩ ⟨.error, "hi"⟩) ∧
    decResponse (.obj [("Log", .obj [("log", .obj [("message", .str "hi"), ("log_type", .str "error"), ("message", .str "ho")]),
      ("step_id", .arr [.str "w", .str "j", .int 2])])]) = none := ⟨by rfl, by rfl⟩

/-- A step without its list of secrets is no step. -/
example : decCommand (.obj [("id", encStepId ⟨"w", "j", 0⟩), ("run", .str "ls"), ("continue_on_error", .bool false),
    ("environments", .obj []), ("timeout", encDuration 5)]) = none := by rfl

end WireMeaningEx
end AstroRun
