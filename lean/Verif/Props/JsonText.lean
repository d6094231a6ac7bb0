import Verif.Lemmas.JsonText
import Verif.Props.Wire

/-! # C57: messages of the remote protocol survive the wire, byte by byte -/

namespace AstroRun
open Wire

namespace Wire
variable {f : FloatText}

/-! ## Too deep -/

mutual
theorem read_deep (j : Json) (hj : Fits f j) (st : List Frame) (b : Bool) (hs : st.length ≤ 127)
    (hd : 127 < st.length + depth j) (r : List Char) (hr : Ends r) :
    readFrom f ⟨st, .value b⟩ (printJson f j ++ r) = none := by
  match j with
  | .null => simp [depth] at hd; omega
  | .bool true => simp [depth] at hd; omega
  | .bool false => simp [depth] at hd; omega
  | .int n => simp [depth] at hd; omega
  | .float s => simp [depth] at hd; omega
  | .str s => simp [depth] at hd; omega
  | .arr [] =>
    have : ¬ st.length < 127 := by simp [depth, depthAll] at hd; omega
    simp [printJson, read_cons, stepChar, stepValue, isWs, this]
  | .arr (j :: js) =>
    simp only [Fits, FitsAll] at hj
    simp only [depth, depthAll] at hd
    simp only [printJson, List.cons_append, read_cons]
    by_cases hlt : st.length < 127
    · have hstep : stepChar f ⟨st, .value b⟩ '[' = some ⟨.arr [] :: st, .value true⟩ := by
        simp [stepChar, stepValue, isWs, hlt]
      rw [hstep, Option.bind_some, List.append_assoc]
      by_cases hd1 : (Frame.arr [] :: st).length + depth j ≤ 127
      · rw [read_json j hj.1 _ true hd1 _ (ends_items js r)]
        simp only [List.length_cons] at hd1
        exact read_deep_items js hj.2 st [] j hlt (by omega) r
      · exact read_deep j hj.1 _ true (by simp only [List.length_cons]; omega) (by omega) _ (ends_items js r)
    · have : stepChar f ⟨st, .value b⟩ '[' = none := by simp [stepChar, stepValue, isWs, hlt]
      rw [this]; rfl
  | .obj [] =>
    have : ¬ st.length < 127 := by simp [depth, depthFields] at hd; omega
    simp [printJson, read_cons, stepChar, stepValue, isWs, this]
  | .obj ((k, j) :: es) =>
    simp only [Fits, FitsFields] at hj
    simp only [depth, depthFields] at hd
    simp only [printJson, List.cons_append, read_cons]
    by_cases hlt : st.length < 127
    · have hstep : stepChar f ⟨st, .value b⟩ '{' = some ⟨.obj [] "" :: st, .key true⟩ := by
        simp [stepChar, stepValue, isWs, hlt]
      rw [hstep, Option.bind_some, List.append_assoc, List.cons_append, read_key, List.append_assoc]
      by_cases hd1 : (Frame.obj [] k :: st).length + depth j ≤ 127
      · rw [read_json j hj.1 _ false hd1 _ (ends_fields es r)]
        simp only [List.length_cons] at hd1
        exact read_deep_fields es hj.2 st [] k j hlt (by omega) r
      · exact read_deep j hj.1 _ false (by simp only [List.length_cons]; omega) (by omega) _ (ends_fields es r)
    · have : stepChar f ⟨st, .value b⟩ '{' = none := by simp [stepChar, stepValue, isWs, hlt]
      rw [this]; rfl
theorem read_deep_items (js : List Json) (hj : FitsAll f js) (st : List Frame) (acc : List Json) (j : Json)
    (hs : st.length < 127) (hd : 127 < st.length + (1 + depthAll js)) (r : List Char) :
    readFrom f ⟨.arr acc :: st, .after j⟩ (printItems f js ++ r) = none := by
  match js with
  | [] => simp [depthAll] at hd; omega
  | i :: js =>
    simp only [FitsAll] at hj
    simp only [depthAll] at hd
    simp only [printItems, List.cons_append, read_cons]
    have hstep : stepChar f ⟨.arr acc :: st, .after j⟩ ',' = some ⟨.arr (acc ++ [j]) :: st, .value false⟩ := by
      simp [stepChar, stepAfter, isWs]
    rw [hstep, Option.bind_some, List.append_assoc]
    by_cases hd1 : (Frame.arr (acc ++ [j]) :: st).length + depth i ≤ 127
    · rw [read_json i hj.1 _ false hd1 _ (ends_items js r)]
      simp only [List.length_cons] at hd1
      exact read_deep_items js hj.2 st (acc ++ [j]) i hs (by omega) r
    · exact read_deep i hj.1 _ false (by simp only [List.length_cons]; omega) (by omega) _ (ends_items js r)
theorem read_deep_fields (es : List (String × Json)) (hj : FitsFields f es) (st : List Frame)
    (acc : List (String × Json)) (k : String) (j : Json) (hs : st.length < 127)
    (hd : 127 < st.length + (1 + depthFields es)) (r : List Char) :
    readFrom f ⟨.obj acc k :: st, .after j⟩ (printFields f es ++ r) = none := by
  match es with
  | [] => simp [depthFields] at hd; omega
  | (k', i) :: es =>
    simp only [FitsFields] at hj
    simp only [depthFields] at hd
    simp only [printFields, List.cons_append, read_cons]
    have hstep : stepChar f ⟨.obj acc k :: st, .after j⟩ ',' = some ⟨.obj (acc ++ [(k, j)]) k :: st, .key false⟩ := by
      simp [stepChar, stepAfter, isWs]
    rw [hstep, Option.bind_some, List.append_assoc, List.cons_append, read_key, List.append_assoc]
    by_cases hd1 : (Frame.obj (acc ++ [(k, j)]) k' :: st).length + depth i ≤ 127
    · rw [read_json i hj.1 _ false hd1 _ (ends_fields es r)]
      simp only [List.length_cons] at hd1
      exact read_deep_fields es hj.2 st (acc ++ [(k, j)]) k' i hs (by omega) r
    · exact read_deep i hj.1 _ false (by simp only [List.length_cons]; omega) (by omega) _ (ends_fields es r)
end

/-! ## The encodings are small -/

/-- Survives its text, with at most `d` levels. -/
def Small (f : FloatText) (d : Nat) (j : Json) : Prop := Fits f j ∧ depth j ≤ d

theorem small_mono {d d' : Nat} {j : Json} (h : Small f d j) (hd : d ≤ d') : Small f d' j := ⟨h.1, Nat.le_trans h.2 hd⟩
theorem small_null {d : Nat} : Small f d .null := ⟨by simp [Fits], by simp [depth]⟩
theorem small_str {d : Nat} (s : String) : Small f d (.str s) := ⟨by simp [Fits], by simp [depth]⟩
theorem small_bool {d : Nat} (b : Bool) : Small f d (.bool b) := ⟨by simp [Fits], by simp [depth]⟩
theorem small_int {d : Nat} {n : Int} (h : I64 n) : Small f d (.int n) :=
  ⟨by simp only [Fits]; exact ⟨h.1, by have := h.2; omega⟩, by simp [depth]⟩
theorem small_nat {d : Nat} {n : Nat} (h : U64 n) : Small f d (.int n) :=
  ⟨by simp only [Fits, IntFits]; unfold U64 at h; omega, by simp [depth]⟩
theorem small_arr {d : Nat} {l : List Json} (h : ∀ j ∈ l, Small f d j) : Small f (d + 1) (.arr l) := by
  have : FitsAll f l ∧ depthAll l ≤ d := by
    induction l with
    | nil => simp [FitsAll, depthAll]
    | cons j l ih =>
      have h1 := h j (.head _)
      have h2 := ih fun x hx => h x (.tail _ hx)
      exact ⟨⟨h1.1, h2.1⟩, by simp only [depthAll]; have := h1.2; have := h2.2; omega⟩
  exact ⟨by simp only [Fits]; exact this.1, by simp only [depth]; omega⟩
theorem small_obj {d : Nat} {l : List (String × Json)} (h : ∀ e ∈ l, Small f d e.2) : Small f (d + 1) (.obj l) := by
  have : FitsFields f l ∧ depthFields l ≤ d := by
    induction l with
    | nil => simp [FitsFields, depthFields]
    | cons e l ih =>
      obtain ⟨k, j⟩ := e
      have h1 := h (k, j) (.head _)
      have h2 := ih fun x hx => h x (.tail _ hx)
      exact ⟨⟨h1.1, h2.1⟩, by
        simp only [depthFields]
        have h3 : depth j ≤ d := h1.2
        have := h2.2
        omega⟩
  exact ⟨by simp only [Fits]; exact this.1, by simp only [depth]; omega⟩
theorem small_opt {α : Type} {enc : α → Json} {o : Option α} {d : Nat} (h : ∀ a, o = some a → Small f d (enc a)) :
    Small f d (encOpt enc o) := by
  cases o with
  | none => exact small_null
  | some a => exact h a rfl
theorem small_list {α : Type} {enc : α → Json} {l : List α} {d : Nat} (h : ∀ a ∈ l, Small f d (enc a)) :
    Small f (d + 1) (encList enc l) :=
  small_arr fun j hj => by
    obtain ⟨a, ha, rfl⟩ := List.mem_map.1 hj
    exact h a ha
theorem small_strs {d : Nat} (l : List String) : Small f (d + 1) (encList .str l) := small_list fun a _ => small_str a
theorem small_map {α : Type} {enc : α → Json} {l : List (String × α)} {d : Nat} (h : ∀ e ∈ l, Small f d (enc e.2)) :
    Small f (d + 1) (encMap enc l) :=
  small_obj fun j hj => by
    obtain ⟨a, ha, rfl⟩ := List.mem_map.1 hj
    exact h a ha

/-- One field after the other. -/
macro "each " h:ident : tactic => `(tactic| (
  intro e $h
  simp only [List.mem_cons, List.not_mem_nil, or_false] at $h:ident
  ))

theorem small_stepId {d : Nat} {i : StepId} (h : U64 i.number) : Small f (d + 1) (encStepId i) :=
  small_arr (by
    each he
    rcases he with rfl | rfl | rfl
    · exact small_str _
    · exact small_str _
    · exact small_nat h)
theorem small_jobId {d : Nat} (i : JobId) : Small f (d + 1) (encJobId i) :=
  small_arr (by
    each he
    rcases he with rfl | rfl <;> exact small_str _)
theorem small_workflowId {d : Nat} (i : WorkflowId) : Small f d (encWorkflowId i) := small_str _
theorem small_state {d : Nat} (s : WorkflowState) : Small f d (encState s) := by cases s <;> exact small_str _
theorem small_logType {d : Nat} (s : LogType) : Small f d (encLogType s) := by cases s <;> exact small_str _
theorem small_log {d : Nat} (l : Log) : Small f (d + 1) (encLog l) :=
  small_obj (by
    each he
    rcases he with rfl | rfl
    · exact small_logType _
    · exact small_str _)
theorem small_result {d : Nat} {r : RunResult} (h : ∀ c, r = .failed c → I64 c) : Small f (d + 2) (encResult r) := by
  cases r with
  | succeeded => exact small_str _
  | cancelled => exact small_str _
  | failed c =>
    refine small_obj (d := d + 1) (by each he; subst he; exact small_obj (by each he; subst he; exact small_int (h c rfl)))
theorem small_signal {d : Nat} (s : Signal) : Small f d (encSignal s) := by cases s <;> exact small_str _
theorem small_trigger {d : Nat} {t : TriggerEvent} (h : ∀ n, t.prNumber = some n → I64 n) :
    Small f (d + 1) (encTrigger t) :=
  small_obj (by
    each he
    rcases he with rfl | rfl | rfl | rfl | rfl | rfl | rfl
    case inr.inr.inr.inl => exact small_opt fun a ha => small_int (h a ha)
    all_goals exact small_str _)
theorem small_branch {d : Nat} (b : BranchCondition) : Small f (d + 2) (encBranch b) :=
  small_obj (by
    each he
    rcases he with rfl | rfl <;> exact small_opt fun a _ => small_strs a)
theorem small_condition {d : Nat} (c : Condition) : Small f (d + 3) (encCondition c) := by
  cases c with
  | event ns => exact small_mono (small_strs (d := 0) ns) (by omega)
  | config c =>
    exact small_obj (by
      each he
      rcases he with rfl | rfl <;> exact small_opt fun a _ => small_branch a)
theorem small_container {d : Nat} (c : ContainerOptions) : Small f (d + 2) (encContainer c) :=
  small_obj (by
    each he
    rcases he with rfl | rfl | rfl
    · exact small_str _
    · exact small_opt fun a _ => small_strs a
    · exact small_opt fun a _ => small_strs a)
theorem small_env {d : Nat} {v : EnvironmentVariable} (h : ∀ n, v = .number n → notFinite n = false → FloatFits f n) :
    Small f d (encEnv v) := by
  cases v with
  | string s => exact small_str _
  | boolean b => exact small_bool _
  | number n =>
    simp only [encEnv]
    split
    · exact small_null
    · rename_i hn
      exact ⟨by simp only [Fits]; exact h n rfl (by simpa using hn), by simp [depth]⟩
theorem small_envs {d : Nat} {e : EnvironmentVariables} (h : EnvFits f e) : Small f (d + 1) (encMap encEnv e) :=
  small_map fun p hp => small_env fun n hn => h p.1 n (by rw [← hn]; exact hp)
theorem small_duration {d : Nat} {t : Nat} (h : U64 (t / 1000000000)) : Small f (d + 1) (encDuration t) :=
  small_obj (by
    each he
    rcases he with rfl | rfl
    · exact small_nat h
    · exact small_nat (by unfold U64; omega))
theorem small_command {d : Nat} {c : Command} (h : CommandFits f c) : Small f (d + 3) (encCommand c) :=
  small_obj (by
    each he
    rcases he with rfl | rfl | rfl | rfl | rfl | rfl | rfl | rfl
    · exact small_stepId h.1
    · exact small_opt fun a _ => small_str a
    · exact small_opt fun a _ => small_container a
    · exact small_str _
    · exact small_bool _
    · exact small_envs h.2.2
    · exact small_strs _
    · exact small_duration h.2.1)
theorem small_step {d : Nat} {s : Step} (h : StepFits f s) : Small f (d + 4) (encStep s) :=
  small_obj (by
    each he
    rcases he with rfl | rfl | rfl | rfl | rfl | rfl | rfl | rfl | rfl
    · exact small_stepId h.1
    · exact small_opt fun a _ => small_str a
    · exact small_opt fun a _ => small_condition a
    · exact small_opt fun a _ => small_container a
    · exact small_str _
    · exact small_bool _
    · exact small_envs h.2.2
    · exact small_strs _
    · exact small_duration h.2.1)
theorem small_job {d : Nat} {j : Job} (h : JobFits f j) : Small f (d + 6) (encJob j) :=
  small_obj (by
    each he
    rcases he with rfl | rfl | rfl | rfl | rfl | rfl
    · exact small_jobId _
    · exact small_opt fun a _ => small_str a
    · exact small_opt fun a _ => small_condition a
    · exact small_list fun a ha => small_step (h a ha)
    · exact small_strs _
    · exact small_strs _)
theorem small_workflow {d : Nat} {w : Workflow} (h : WorkflowFits f w) : Small f (d + 8) (encWorkflow w) :=
  small_obj (by
    each he
    rcases he with rfl | rfl | rfl | rfl
    · exact small_workflowId _
    · exact small_opt fun a _ => small_str a
    · exact small_opt fun a _ => small_condition a
    · exact small_map fun a ha => small_job (h a ha))

variable {Pl : Type} {x : Ext Pl}

theorem small_time {d : Nat} (t : Time) : Small f d (encTime x t) := small_str _
theorem small_stepResult {d : Nat} {r : StepRunResult} (h : StepResultFits r) : Small f (d + 2) (encStepResult x r) :=
  small_obj (by
    each he
    rcases he with rfl | rfl | rfl | rfl | rfl
    · exact small_stepId h.1
    · exact small_state _
    · exact small_opt fun a ha => small_int (h.2 a ha)
    · exact small_opt fun a _ => small_time a
    · exact small_opt fun a _ => small_time a)
theorem small_jobResult {d : Nat} {r : JobRunResult} (h : JobResultFits r) : Small f (d + 4) (encJobResult x r) :=
  small_obj (by
    each he
    rcases he with rfl | rfl | rfl | rfl | rfl
    · exact small_jobId _
    · exact small_state _
    · exact small_opt fun a _ => small_time a
    · exact small_opt fun a _ => small_time a
    · exact small_list fun a ha => small_stepResult (h a ha))
theorem small_workflowResult {d : Nat} {r : WorkflowRunResult} (h : WorkflowResultFits r) :
    Small f (d + 6) (encWorkflowResult x r) :=
  small_obj (by
    each he
    rcases he with rfl | rfl | rfl | rfl | rfl
    · exact small_workflowId _
    · exact small_state _
    · exact small_opt fun a _ => small_time a
    · exact small_opt fun a _ => small_time a
    · exact small_map fun a ha => small_jobResult (h a ha))
theorem small_workflowLog {d : Nat} {l : WorkflowLog} (h : U64 l.stepId.number) :
    Small f (d + 2) (encWorkflowLog x l) :=
  small_obj (by
    each he
    rcases he with rfl | rfl | rfl | rfl
    · exact small_stepId h
    · exact small_logType _
    · exact small_str _
    · exact small_time _)
theorem small_runEvent {α : Type} {enc : α → Json} {src : α → Prop} {e : RunEvent α Pl}
    (he' : RunEventFits f x src e) (h : ∀ a, src a → Small f 120 (enc a)) : Small f 121 (encRunEvent x enc e) :=
  small_obj (d := 120) (by
    each he
    rcases he with rfl | rfl | rfl
    · exact h _ he'.1
    · exact small_opt fun a ha => small_trigger fun n hn => he'.2.1 a n ha hn
    · exact small_opt fun a ha => he'.2.2 a ha)

theorem small_event {e : ProtocolEvent Pl} (h : EventFits f x e) : Small f 127 (encEvent x e) := by
  have one : ∀ {k : String} {j : Json}, Small f 126 j → Small f 127 (.obj [(k, j)]) := by
    intro k j hj
    exact small_obj (d := 126) (by each he; subst he; exact hj)
  cases e with
  | runStep e => exact one (small_mono (small_runEvent h fun a ha => small_step (d := 116) ha) (by omega))
  | runJob e => exact one (small_mono (small_runEvent h fun a ha => small_job (d := 114) ha) (by omega))
  | runWorkflow e => exact one (small_mono (small_runEvent h fun a ha => small_workflow (d := 112) ha) (by omega))
  | stepCompleted r => exact one (small_stepResult (d := 124) h)
  | jobCompleted r => exact one (small_jobResult (d := 122) h)
  | workflowCompleted r => exact one (small_workflowResult (d := 120) h)
  | stepLog l => exact one (small_workflowLog (d := 124) h)
  | stateChange e =>
    refine one ?_
    cases e with
    | workflow i s =>
      refine small_obj (d := 125) (by
        each he; subst he
        exact small_obj (d := 124) (by
          each he
          rcases he with rfl | rfl
          · exact small_workflowId _
          · exact small_state _))
    | job i s =>
      refine small_obj (d := 125) (by
        each he; subst he
        exact small_obj (d := 124) (by
          each he
          rcases he with rfl | rfl
          · exact small_jobId _
          · exact small_state _))
    | step i s =>
      refine small_obj (d := 125) (by
        each he; subst he
        exact small_obj (d := 124) (by
          each he
          rcases he with rfl | rfl
          · exact small_stepId h
          · exact small_state _))
  | signal e =>
    refine one (small_obj (d := 125) (by
      each he
      rcases he with rfl | rfl
      · exact small_stepId h
      · exact small_signal _))

theorem small_context {c : Context} (h : ContextFits f c) : Small f 127 (encContext c) :=
  small_obj (d := 126) (by
    each he
    rcases he with rfl | rfl | rfl | rfl
    · exact small_stepId h.1
    · exact small_command (d := 123) h.2.1
    · exact small_opt fun a ha => small_trigger fun n hn => h.2.2 a n ha hn
    · exact small_opt fun a _ => small_str a)

theorem small_response {r : RunResponse} (h : ResponseFits r) : Small f 127 (encResponse r) := by
  cases r with
  | log i l =>
    exact small_obj (d := 126) (by
      each he; subst he
      exact small_obj (d := 125) (by
        each he
        rcases he with rfl | rfl
        · exact small_stepId h
        · exact small_log _))
  | result i r =>
    have h1 : U64 i.number := by cases r <;> simp only [ResponseFits] at h <;> first | exact h | exact h.1
    have h2 : ∀ c, r = .failed c → I64 c := by rintro c rfl; exact h.2
    exact small_obj (d := 126) (by
      each he; subst he
      exact small_obj (d := 125) (by
        each he
        rcases he with rfl | rfl
        · exact small_stepId h1
        · exact small_result h2))

theorem small_meta {m : RunnerMeta} (h : I64 m.maxRuns) : Small f 127 (encMeta m) :=
  small_obj (d := 126) (by
    each he
    rcases he with rfl | rfl | rfl | rfl | rfl | rfl | rfl
    case inr.inr.inr.inl => exact small_bool _
    case inr.inr.inr.inr.inl => exact small_bool _
    case inr.inr.inr.inr.inr.inr => exact small_int h
    all_goals exact small_str _)

end Wire

/-! ## C57 -/

/-- **C57** The text of every JSON value, with any strings, keys and nesting up to 127 levels, is read back as that
value; a text nested deeper is refused. -/
theorem C57_json_text (f : FloatText) (j : Json) (hj : Fits f j) :
    parseJson f (printJson f j) = if depth j ≤ 127 then some j else none := by
  split
  · rename_i h; exact parse_print j hj h
  · rename_i h
    have := read_deep j hj [] false (by simp) (by simp only [List.length_nil]; omega) [] (by simp [Ends])
    simpa [parseJson] using this

/-- **C57** (partial) The bytes of every event are decoded to that event.  Missing for the full claim: numbers in
environments that are not finite, see `C57_refuted`, and payloads nested very deeply, see `C57_deep_refuted`. -/
theorem C57_event_bytes_partial {Pl : Type} (f : FloatText) (x : Ext Pl) (hx : x.Lawful) (e : ProtocolEvent Pl)
    (h : EventSendable e) (hf : EventFits f x e) :
    codecDecode f (decEvent x) (codecEncode f (encEvent x e)) = some (some e) :=
  have hs := small_event hf
  codec_roundtrip _ _ _ hs.1 hs.2 (C57_event_partial x hx e h)

/-- **C57** (partial) The same for the bytes of the request to run a step. -/
theorem C57_context_bytes_partial (f : FloatText) (c : Wire.Context) (h : FiniteEnv c.command.environments)
    (hf : ContextFits f c) :
    codecDecode f decContext (codecEncode f (encContext c)) = some (some { c with signal := {} }) :=
  have hs := small_context hf
  codec_roundtrip _ _ _ hs.1 hs.2 (C57_context_partial c h)

/-- **C57** (partial) The same for the bytes of the before-step hook. -/
theorem C57_command_bytes_partial (f : FloatText) (c : Command) (h : FiniteEnv c.environments)
    (hf : CommandFits f c) : codecDecode f decCommand (codecEncode f (encCommand c)) = some (some c) :=
  have hs := small_command (d := 124) hf
  codec_roundtrip _ _ _ hs.1 hs.2 (C57_command_partial c h)

/-- **C57** The bytes of every message of the response stream are decoded to that message. -/
theorem C57_response_bytes (f : FloatText) (r : Wire.RunResponse) (hf : ResponseFits r) :
    codecDecode f decResponse (codecEncode f (encResponse r)) = some (some r) :=
  have hs := small_response hf
  codec_roundtrip _ _ _ hs.1 hs.2 (C57_response r)

/-- **C57** The bytes of a runner's metadata are decoded to those metadata. -/
theorem C57_metadata_bytes (f : FloatText) (m : RunnerMeta) (hf : I64 m.maxRuns) :
    codecDecode f decMeta (codecEncode f (encMeta m)) = some (some m) :=
  have hs := small_meta hf
  codec_roundtrip _ _ _ hs.1 hs.2 (C57_metadata m)

namespace JsonEx
/-- A payload nested `n` times. -/
def nest : Nat → Json
  | 0 => .str "x"
  | n + 1 => .arr [nest n]
/-- A plain step. -/
def step : Step := { id := ⟨"w", "j", 3⟩, run := "make", timeout := 60000000001 }
/-- Payloads that are nested lists. -/
def ext : Ext Nat where
  showTime t := String.ofList (List.replicate t '|')
  parseTime s := some s.toList.length
  encPayload n := .obj [("Nest", nest n)]
  decPayload
    | .obj [("Nest", j)] => some (depth j)
    | _ => none

theorem depth_nest (n : Nat) : depth (nest n) = n := by
  induction n with
  | zero => rfl
  | succ n ih => simp [nest, depth, depthAll, ih]; omega
theorem fits_nest (f : FloatText) (n : Nat) : Fits f (nest n) := by
  induction n with
  | zero => simp [nest, Fits]
  | succ n ih => simp [nest, Fits, FitsAll, ih]

theorem ext_lawful : ext.Lawful where
  time t := by simp [ext]
  payload p := by simp [ext, depth_nest]
  payloadObject p := by simp [ext]
end JsonEx

/-- **C57 is false of the code** also for a payload that is nested more than about 120 times: the event is written, but
the bytes do not decode. -/
theorem C57_deep_refuted (f : FloatText) : ∃ (Pl : Type) (x : Ext Pl) (e : ProtocolEvent Pl),
    x.Lawful ∧ EventSendable e ∧ codecDecode f (decEvent x) (codecEncode f (encEvent x e)) = none := by
  refine ⟨Nat, JsonEx.ext, .runStep { source := JsonEx.step, triggerEvent := none, payload := some 200 },
    JsonEx.ext_lawful, ⟨by unfold IsMap; decide, fun k n hm => by simp [JsonEx.step] at hm⟩, ?_⟩
  generalize hj : encEvent JsonEx.ext
    (.runStep { source := JsonEx.step, triggerEvent := none, payload := some 200 }) = j
  have hfit : Fits f j := by
    subst hj
    simp only [encEvent, encRunEvent, encOpt, Fits, FitsFields, JsonEx.ext, and_true, true_and]
    refine ⟨?_, JsonEx.fits_nest f 200⟩
    exact (small_step (d := 0) ⟨by unfold U64; decide, by unfold U64; decide,
      fun k n hm => by simp [JsonEx.step] at hm⟩).1
  have hdeep : ¬ depth j ≤ 127 := by
    subst hj
    simp only [encEvent, encRunEvent, encOpt, depth, depthFields, JsonEx.ext, JsonEx.depth_nest]
    omega
  have hp := C57_json_text f j hfit
  rw [if_neg hdeep] at hp
  have hne := print_ne_nil j hfit
  have hs : (codecEncode f j).size ≠ 0 := codec_size hne
  unfold codecDecode
  rw [if_neg hs, codec_utf8]
  simp [hp]

/-! ## Concrete cases -/

/-- An event of a pull request. -/
def JsonExEv : TriggerEvent :=
  { event := "pull_request", repoOwner := "octo", repoName := "hello", prNumber := some 7, sha := "s", branch := "main",
    refName := "refs/heads/main" }

namespace JsonEx
/-- Floats are written as they are shown, with `.0` if that has no fraction. -/
def floats : FloatText where
  write s := if s.toList.contains '.' then s else s ++ ".0"
  read s := some (match s.toList.reverse with
    | '0' :: '.' :: r => String.ofList r.reverse
    | _ => s)
/-- Nested, with keys that need escapes. -/
def value : Json :=
  .obj [("a\"b", .arr [.int (-5), .float "1.5", .float "3", .null, .bool true, .str "\u0001\n\\é😀"]), ("", .obj [])]
end JsonEx

theorem JsonEx.fits15 : FloatFits JsonEx.floats "1.5" :=
  ⟨⟨[], ['1'], ['.', '5'], by decide, .inl rfl, by decide, by decide, by decide, by decide, by decide, by decide⟩,
    by decide⟩
theorem JsonEx.fits3 : FloatFits JsonEx.floats "3" :=
  ⟨⟨[], ['3'], ['.', '0'], by decide, .inl rfl, by decide, by decide, by decide, by decide, by decide, by decide⟩,
    by decide⟩

example : Fits JsonEx.floats JsonEx.value ∧ depth JsonEx.value = 2 := by
  refine ⟨?_, by decide⟩
  simp [JsonEx.value, Fits, FitsAll, FitsFields, IntFits, JsonEx.fits15, JsonEx.fits3]

example : EventFits JsonEx.floats WireEx.ext
    (.runStep { source := WireEx.step, triggerEvent := some JsonExEv, payload := some "text" }) ∧
    EventSendable (.runStep { source := WireEx.step, triggerEvent := some JsonExEv, payload := some "text" } :
      ProtocolEvent String) := by
  refine ⟨⟨⟨by unfold U64; decide, by unfold U64; decide, fun k n hm _ => ?_⟩, ?_, ?_⟩, by unfold IsMap; decide, ?_⟩
  · simp only [WireEx.step, List.mem_cons, Prod.mk.injEq, reduceCtorEq, and_false, List.not_mem_nil, or_false,
      EnvironmentVariable.number.injEq, false_or] at hm
    obtain ⟨_, rfl⟩ := hm
    exact JsonEx.fits15
  · intro e n he hn
    simp only [Option.some.injEq] at he
    subst he
    simp only [JsonExEv, Option.some.injEq] at hn
    subst hn
    unfold I64; decide
  · intro a _
    simp [WireEx.ext, Fits, FitsFields, depth, depthFields]
  · intro k n hm
    simp only [WireEx.step, List.mem_cons, Prod.mk.injEq, reduceCtorEq, and_false, List.not_mem_nil, or_false,
      EnvironmentVariable.number.injEq, false_or] at hm
    obtain ⟨_, rfl⟩ := hm
    decide

example : ResponseFits (.result ⟨"w", "j", 1⟩ (.failed (-1))) ∧ I64 (5 : Int) := by
  refine ⟨⟨?_, ?_⟩, ?_⟩ <;> (first | unfold U64 | unfold I64) <;> decide

end AstroRun
