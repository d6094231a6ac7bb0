import Verif.Spec.Grpc
import Verif.Props.JsonText

/-! # C110: calls of the gRPC service -/

namespace AstroRun
open Wire

namespace Wire
variable {Pl : Type} {f : FloatText} {x : Ext Pl}

theorem route_path (m : Method) : serverRoute m.path = some m := by cases m <;> decide

theorem receive_light {α : Type} {dec : Json → Option α} {j : Json} {a : α} (hl : Light f j)
    (h : codecDecode f dec (codecEncode f j) = some (some a)) : receive f dec (codecEncode f j) = .ok a := by
  have : ¬ (codecEncode f j).size > maxMessage := Nat.not_lt.2 hl
  simp [receive, this, h]

theorem receive_heavy {α : Type} {dec : Json → Option α} {j : Json} (hl : ¬ Light f j) :
    receive f dec (codecEncode f j) = .error { code := 11 } := by
  have : (codecEncode f j).size > maxMessage := Nat.not_le.1 hl
  simp [receive, this]

theorem empty_bytes (u : Unit) : codecDecode f decEmpty (codecEncode f (encEmpty u)) = some (some ()) :=
  codec_roundtrip _ _ _ (by simp [encEmpty, Fits, FitsFields]) (by simp [encEmpty, depth, depthFields]) rfl

theorem empty_light (u : Unit) : Light f (encEmpty u) := by
  simp only [Light, bytesOf, codecEncode, encEmpty, printJson, printFields]
  decide

theorem request_bytes (hx : x.Lawful) (m : Method) (q : m.Req Pl) (h : RequestOk f x m q) :
    codecDecode f (m.decReq x) (codecEncode f (m.encReq x q)) = some (some (asSeen m q)) := by
  cases m with
  | getRunnerMetadata => exact empty_bytes q
  | run => exact C57_context_bytes_partial f q h.1 h.2
  | sendEvent => exact C57_event_bytes_partial f x hx q h.1 h.2
  | callBeforeRunStepHook => exact C57_command_bytes_partial f q h.1 h.2

theorem items_arrive {items : List (Except Status RunResponse)} (h : ∀ r, .ok r ∈ items → ResponseFits r) :
    Arrives f items (receiveItems f (sendItems f items).status (sendItems f items).messages) := by
  induction items with
  | nil => exact .nil
  | cons i rest ih =>
    cases i with
    | error e => exact .error
    | ok r =>
      have hr := C57_response_bytes f r (h r (by simp))
      by_cases hl : Light f (encResponse r)
      · simp only [sendItems, receiveItems, receive_light hl hr]
        exact .item hl (ih fun r' hm => h r' (List.mem_cons_of_mem _ hm))
      · simp only [sendItems, receiveItems, receive_heavy hl]
        exact .heavy hl rfl

theorem one_read {α : Type} {enc : α → Json} {dec : Json → Option α} {r : α}
    (h : codecDecode f dec (codecEncode f (enc r)) = some (some r)) :
    if Light f (enc r) then receiveOne f dec { messages := [codecEncode f (enc r)] } = .ok r
    else ∃ e, receiveOne f dec { messages := [codecEncode f (enc r)] } = .error e ∧ e.code = 11 := by
  split
  · rename_i hl; exact receive_light hl h
  · rename_i hl; exact ⟨_, receive_heavy hl, rfl⟩

theorem answer_read (m : Method) (r : m.Answer) (h : AnswerOk f m r) :
    Answered f m (.ok r) (m.readAnswer f (m.send f r)) := by
  cases m with
  | run => exact ⟨_, rfl, items_arrive h⟩
  | sendEvent => exact receive_light (empty_light _) (empty_bytes r)
  | getRunnerMetadata => exact one_read (C57_metadata_bytes f r h)
  | callBeforeRunStepHook =>
    have hc := one_read (α := Command) (enc := encCommand) (C57_command_bytes_partial f r h.1 h.2)
    simpa only [Answered, Method.readAnswer, Method.send] using hc

theorem answered_error (m : Method) (e : Status) : Answered f m (.error e) (.error e) := by
  cases m <;> simp [Answered]

/-- A text of characters is at least as many bytes. -/
theorem bytes_ge (l : List Char) : l.length ≤ (String.ofList l).toUTF8.size := by
  have key : ∀ l : List Char, l.length ≤ (String.ofList l).utf8ByteSize := by
    intro l
    induction l with
    | nil => simp
    | cons c l ih =>
      have : String.ofList (c :: l) = String.singleton c ++ String.ofList l := by
        apply String.toList_injective; simp
      rw [this, String.utf8ByteSize_append, String.utf8ByteSize_singleton, List.length_cons]
      have := Char.utf8Size_pos c
      omega
  simpa [String.utf8ByteSize] using key l

theorem escape_ge (l : List Char) : l.length ≤ (l.flatMap escapeChar).length := by
  induction l with
  | nil => simp
  | cons c l ih =>
    have : 1 ≤ (escapeChar c).length := by
      unfold escapeChar
      repeat' split
      all_goals simp
    simp only [List.flatMap_cons, List.length_append, List.length_cons]
    omega

theorem log_bytes (i : StepId) (t : LogType) (s : String) :
    s.toList.length ≤ bytesOf f (encResponse (.log i ⟨t, s⟩)) := by
  refine Nat.le_trans ?_ (bytes_ge _)
  have := escape_ge s.toList
  simp only [encResponse, encLog, printJson, printFields, printStr, List.length_append, List.length_cons]
  omega

end Wire

/-- **C110** Every method of the client reaches the method of the same name at the server, and nothing else reaches it. -/
theorem C110_routes (p : String) (m : Method) : serverRoute p = some m ↔ p = m.path := by
  constructor
  · intro h
    unfold serverRoute at h
    repeat' split at h
    all_goals simp_all [Method.path]
    all_goals subst h; rfl
  · rintro rfl; exact route_path m

/-- **C110** A request for any other path is answered "unimplemented", and nobody is called. -/
theorem C110_unknown {Pl : Type} (f : FloatText) (x : Ext Pl) (h : Handlers Pl) (p : String)
    (hp : ∀ m : Method, p ≠ m.path) (request : ByteArray) :
    serve f x h p request = ([], .error { code := 12 }) := by
  cases hr : serverRoute p with
  | none => simp [serve, hr]
  | some m => exact absurd ((C110_routes p m).1 hr) (hp m)

/-- **C110** Whatever arrives, at most one method is called, once, and it is that of the path. -/
theorem C110_one_method {Pl : Type} (f : FloatText) (x : Ext Pl) (h : Handlers Pl) (p : String) (request : ByteArray) :
    (serve f x h p request).1.length ≤ 1 ∧ ∀ c ∈ (serve f x h p request).1, p = c.1.path := by
  unfold serve
  cases hr : serverRoute p with
  | none => simp
  | some m =>
    have := (C110_routes p m).1 hr
    cases hq : receive f (m.decReq x) request <;> simp [this, hq]

/-- **C110** (partial) A call with a request that survives its text and has at most 4 MB calls the implementation once, with that
method and that request, and the caller gets its answer.  Missing for the full claim: requests and answers of more than 4 MB, see `C110_refuted`,
and those that JSON does not preserve, see `C57_refuted`. -/
theorem C110_call_partial {Pl : Type} (f : FloatText) (x : Ext Pl) (hx : x.Lawful) (h : Handlers Pl) (m : Method) (q : m.Req Pl)
    (hq : RequestOk f x m q) (hl : Light f (m.encReq x q))
    (ha : ∀ r, h m (asSeen m q) = .ok r → AnswerOk f m r) :
    (rpc f x h (.ok ()) m q).1 = [⟨m, asSeen m q⟩] ∧
    Answered f m (h m (asSeen m q)) (rpc f x h (.ok ()) m q).2 := by
  have hr := receive_light hl (request_bytes hx m q hq)
  simp only [rpc, serve, route_path, hr]
  refine ⟨trivial, ?_⟩
  cases ho : h m (asSeen m q) with
  | error e => exact answered_error m e
  | ok r => exact answer_read m r (ha r ho)

/-- **C110** A request of more than 4 MB reaches nobody, and nor does any if the service is not ready; the caller is told. -/
theorem C110_refused {Pl : Type} (f : FloatText) (x : Ext Pl) (h : Handlers Pl) (m : Method) (q : m.Req Pl) :
    (¬ Light f (m.encReq x q) → rpc f x h (.ok ()) m q = ([], .error { code := 11 })) ∧
    ∀ e, rpc f x h (.error e) m q = ([], .error { code := 2, message := "Service was not ready: " ++ e }) := by
  refine ⟨fun hl => ?_, fun e => rfl⟩
  simp only [rpc, serve, route_path, receive_heavy hl]
  rfl

/-- **C110** What the client tells the stream of a step whose run went through: every line and the result of the runner in
its order, as far as they arrive; at an error, that and a failure. -/
theorem C110_told (shown : Status → String) (items : List (Except Status RunResponse)) :
    ∃ good : List Wire.RunResponse, (∀ r ∈ good, .ok r ∈ items) ∧
      ((items = good.map .ok ∧ readRun shown items = good.map told) ∨
        ∃ e rest, items = good.map .ok ++ .error e :: rest ∧
          readRun shown items = good.map told ++ [.error ("Failed to run: " ++ shown e), .fin (.failed 1)]) := by
  induction items with
  | nil => exact ⟨[], by simp, .inl ⟨rfl, rfl⟩⟩
  | cons i rest ih =>
    cases i with
    | error e => exact ⟨[], by simp, .inr ⟨e, rest, rfl, rfl⟩⟩
    | ok r =>
      obtain ⟨good, hg, h⟩ := ih
      refine ⟨r :: good, by intro a ha; rcases List.mem_cons.1 ha with rfl | ha <;> simp_all, ?_⟩
      have hr : readRun shown (.ok r :: rest) = told r :: readRun shown rest := by
        cases r with
        | log i l => obtain ⟨t, s⟩ := l; cases t <;> rfl
        | result i r => rfl
      rcases h with ⟨h1, h2⟩ | ⟨e, more, h1, h2⟩
      · exact .inl ⟨by simp [h1], by rw [hr, h2]; rfl⟩
      · exact .inr ⟨e, more, by simp [h1], by rw [hr, h2]; rfl⟩

/-- **C110** A step the runner did not get, or whose run it refused, is reported: the stream of the step is told why, and that it failed.
(Never nothing: a step's stream that is not ended keeps its job waiting.) -/
theorem C110_not_run {Pl : Type} (f : FloatText) (x : Ext Pl) (h : Handlers Pl) (ready : Except String Unit) (shown : Status → String)
    (c : Wire.Context) (hno : ∀ q items, ⟨.run, q⟩ ∈ (rpc f x h ready .run c).1 → h .run q ≠ .ok items) :
    ∃ why, clientRun f x h ready shown c = [.error ("Failed to run: " ++ why), .fin (.failed 1)] := by
  have key : ∃ e, (rpc f x h ready .run c).2 = .error e := by
    cases ready with
    | error e => exact ⟨_, rfl⟩
    | ok u =>
      simp only [rpc, serve, route_path] at hno ⊢
      cases hr : receive f (Method.run.decReq x) (codecEncode f (Method.run.encReq x c)) with
      | error e => exact ⟨e, by simp [Except.bind]⟩
      | ok q =>
        rw [hr] at hno
        cases hh : h .run q with
        | error e => exact ⟨e, by simp [hh, Except.map, Except.bind]⟩
        | ok items => exact absurd hh (hno q items (by simp))
  obtain ⟨e, he⟩ := key
  exact ⟨shown e, by simp [clientRun, he]⟩

/-- **C110** A call with one answer succeeds only with an answer, and never when the server sent a status. -/
theorem C110_unary (f : FloatText) (m : Method) (hm : m ≠ .run) (s : Sent) (r : m.Answer) (h : m.readAnswer f s = .ok r) :
    s.status = none ∧ s.messages ≠ [] := by
  have key : ∀ {α : Type} (dec : Json → Option α) (a : α), receiveOne f dec s = .ok a → s.status = none ∧ s.messages ≠ [] := by
    intro α dec a ha
    unfold receiveOne at ha
    split at ha
    · cases ha
    · cases ha
    · rename_i m rest h1 h2; exact ⟨h2, by simp [h1]⟩
    · split at ha <;> cases ha
  cases m with
  | run => exact absurd rfl hm
  | getRunnerMetadata => exact key _ _ h
  | sendEvent => exact key _ _ h
  | callBeforeRunStepHook => exact key _ _ h

/-- **C110** An error it reports is the server's, or one with a code of its own. -/
theorem C110_unary_error (f : FloatText) (m : Method) (hm : m ≠ .run) (s : Sent) (e : Status) (h : m.readAnswer f s = .error e) :
    s.status = some e ∨ e.code = 11 ∨ e.code = 13 := by
  have hrec : ∀ {α : Type} (dec : Json → Option α) (b : ByteArray) (e : Status), receive f dec b = .error e → e.code = 11 ∨ e.code = 13 := by
    intro α dec b e he
    unfold receive at he
    split at he
    · cases he; exact .inl rfl
    · split at he <;> cases he; exact .inr rfl
  have key : ∀ {α : Type} (dec : Json → Option α), receiveOne f dec s = .error e → s.status = some e ∨ e.code = 11 ∨ e.code = 13 := by
    intro α dec ha
    unfold receiveOne at ha
    split at ha
    · rename_i h2; cases ha; exact .inl h2
    · cases ha; exact .inr (.inr rfl)
    · exact .inr (hrec _ _ _ ha)
    · rename_i h2
      split at ha
      · cases ha; exact .inl h2
      · rename_i hr; cases ha; exact .inr (hrec _ _ _ hr)
  cases m with
  | run => exact absurd rfl hm
  | getRunnerMetadata => exact key _ h
  | sendEvent => exact key _ h
  | callBeforeRunStepHook => exact key _ h

/-- The hypotheses are met: a runner out of reach, an answer with a message, and one without. -/
example (f : FloatText) (x : Ext Nat) (h : Handlers Nat) (c : Wire.Context) :
    (∀ q items, ⟨.run, q⟩ ∈ (rpc f x h (.error "refused") .run c).1 → h .run q ≠ .ok items) ∧
    (∃ r, Method.sendEvent.readAnswer JsonEx.floats { messages := [codecEncode JsonEx.floats (encEmpty ())] } = .ok r) ∧
    ∃ e, Method.sendEvent.readAnswer f {} = .error e :=
  ⟨fun q items hq => by simp [rpc] at hq, ⟨(), rfl⟩, ⟨_, rfl⟩⟩

namespace GrpcEx
/-- A line of five million letters. -/
def long : String := String.ofList (List.replicate 5000000 'a')
/-- A runner that prints it and succeeds. -/
def runner : List (Except Status Wire.RunResponse) :=
  [.ok (.log ⟨"w", "j", 0⟩ ⟨.log, long⟩), .ok (.result ⟨"w", "j", 0⟩ .succeeded)]
/-- A runner's service. -/
def handlers : Handlers Nat
  | .getRunnerMetadata, _ =>
    .ok { id := "r1", os := "linux", arch := "x86_64", supportDocker := true, supportHost := false, version := "1",
          maxRuns := 3 }
  | .run, _ => .ok runner
  | .sendEvent, _ => .error { code := 7, message := "no" }
  | .callBeforeRunStepHook, (c : Command) => .ok { c with run := "echo" }
/-- A step to run. -/
def context : Wire.Context := { id := ⟨"w", "j", 0⟩, command := { id := ⟨"w", "j", 0⟩, run := "make" } }

set_option maxRecDepth 20000 in
theorem light (f : FloatText) : Light f (encContext context) := Nat.le_of_ble_eq_true rfl
end GrpcEx

/-- **C110 is false of the code** for a line of more than 4 MB: the runner prints it and the step succeeds, but the
engine gets neither the line nor the result; the step fails. -/
theorem C110_refuted (f : FloatText) (shown : Status → String) :
    ∃ (h : Handlers Nat) (c : Wire.Context) (i : StepId) (l : Log),
      (rpc f JsonEx.ext h (.ok ()) .run c).1 = [⟨.run, asSeen .run c⟩] ∧
      h .run (asSeen .run c) = .ok [.ok (.log i l), .ok (.result i .succeeded)] ∧
      ∃ msg, clientRun f JsonEx.ext h (.ok ()) shown c = [.error msg, .fin (.failed 1)] := by
  have hfin : FiniteEnv GrpcEx.context.command.environments := ⟨by unfold IsMap; decide, by simp [GrpcEx.context]⟩
  have hfit : ContextFits f GrpcEx.context := by
    refine ⟨by unfold U64; decide, ⟨by unfold U64; decide, by unfold U64; decide, ?_⟩, ?_⟩
    · simp [GrpcEx.context, EnvFits]
    · simp [GrpcEx.context, TriggerFits]
  have hl := GrpcEx.light f
  have hfits : ∀ r, GrpcEx.handlers .run (asSeen .run GrpcEx.context) = .ok r → AnswerOk f .run r := by
    intro r hr
    have : r = GrpcEx.runner := by
      simp only [GrpcEx.handlers] at hr
      exact (Except.ok.inj hr).symm
    subst this
    intro r hm
    simp only [GrpcEx.runner, List.mem_cons, Except.ok.injEq, List.not_mem_nil, or_false] at hm
    rcases hm with rfl | rfl
    · unfold ResponseFits U64; decide
    · unfold ResponseFits U64; decide
  obtain ⟨h1, h2⟩ := C110_call_partial f JsonEx.ext JsonEx.ext_lawful GrpcEx.handlers .run GrpcEx.context ⟨hfin, hfit⟩ hl hfits
  refine ⟨GrpcEx.handlers, GrpcEx.context, ⟨"w", "j", 0⟩, ⟨.log, GrpcEx.long⟩, h1, rfl, ?_⟩
  obtain ⟨seen, h3, h4⟩ := h2
  have hgt : ∀ n : Nat, n = 5000000 → ¬ n ≤ 4194304 := by omega
  have hheavy : ¬ Light f (encResponse (.log ⟨"w", "j", 0⟩ ⟨.log, GrpcEx.long⟩)) := by
    have h5 := log_bytes (f := f) ⟨"w", "j", 0⟩ .log GrpcEx.long
    unfold Light
    intro h
    exact hgt GrpcEx.long.toList.length (by unfold GrpcEx.long; rw [String.toList_ofList, List.length_replicate])
      (Nat.le_trans h5 h)
  simp only [clientRun, h3]
  cases h4 with
  | item hli => exact absurd hli hheavy
  | heavy => exact ⟨_, rfl⟩

set_option maxRecDepth 20000 in
/-- The hook of a command is called with it, and its change comes back. -/
example : (rpc JsonEx.floats JsonEx.ext GrpcEx.handlers (.ok ()) .callBeforeRunStepHook GrpcEx.context.command).2 =
    .ok { GrpcEx.context.command with run := "echo" } := by
  have hfit : FiniteEnv GrpcEx.context.command.environments ∧ CommandFits JsonEx.floats GrpcEx.context.command :=
    ⟨⟨by unfold IsMap; decide, by simp [GrpcEx.context]⟩, by unfold U64; decide, by unfold U64; decide,
      by simp [GrpcEx.context, EnvFits]⟩
  have hfit' : AnswerOk JsonEx.floats .callBeforeRunStepHook { GrpcEx.context.command with run := "echo" } := hfit
  have h := (C110_call_partial JsonEx.floats JsonEx.ext JsonEx.ext_lawful GrpcEx.handlers .callBeforeRunStepHook
    GrpcEx.context.command hfit (by unfold Light bytesOf codecEncode; decide +kernel)
    (by intro r hr; rw [← Except.ok.inj hr]; exact hfit')).2
  have e : GrpcEx.handlers .callBeforeRunStepHook (asSeen .callBeforeRunStepHook GrpcEx.context.command) =
      .ok { GrpcEx.context.command with run := "echo" } := rfl
  rw [e] at h
  have hl : Light JsonEx.floats (encCommand { GrpcEx.context.command with run := "echo" }) := by
    unfold Light bytesOf codecEncode; decide +kernel
  revert h
  generalize (rpc JsonEx.floats JsonEx.ext GrpcEx.handlers (.ok ()) .callBeforeRunStepHook GrpcEx.context.command).2 = got
  intro h
  simp only [Answered, if_pos hl] at h
  exact h

end AstroRun
