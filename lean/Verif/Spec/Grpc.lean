import Verif.Model.Grpc
import Verif.Spec.Wire
import Verif.Spec.JsonText

/-! # Specification vocabulary: calls of the gRPC service -/

namespace AstroRun.Wire

/-- The request survives its text (see C57). -/
def RequestOk {Pl : Type} (f : FloatText) (x : Ext Pl) : (m : Method) → m.Req Pl → Prop
  | .getRunnerMetadata, _ => True
  | .run, (c : Context) => FiniteEnv c.command.environments ∧ ContextFits f c
  | .sendEvent, (e : ProtocolEvent Pl) => EventSendable e ∧ EventFits f x e
  | .callBeforeRunStepHook, (c : Command) => FiniteEnv c.environments ∧ CommandFits f c

/-- The request as the other side is to see it: the same; only the signal of a step stays behind. -/
def asSeen {Pl : Type} : (m : Method) → m.Req Pl → m.Req Pl
  | .getRunnerMetadata, q => q
  | .run, (c : Context) => { c with signal := {} }
  | .sendEvent, q => q
  | .callBeforeRunStepHook, q => q

/-- The answer is one that survives its text. -/
def AnswerOk (f : FloatText) : (m : Method) → m.Answer → Prop
  | .getRunnerMetadata, (r : RunnerMeta) => I64 r.maxRuns
  | .run, (items : List (Except Status RunResponse)) => ∀ r, .ok r ∈ items → ResponseFits r
  | .sendEvent, _ => True
  | .callBeforeRunStepHook, (c : Command) => FiniteEnv c.environments ∧ CommandFits f c

/-- The number of bytes of a message. -/
def bytesOf (f : FloatText) (j : Json) : Nat := (codecEncode f j).size

/-- At most 4 MB. -/
def Light (f : FloatText) (j : Json) : Prop := bytesOf f j ≤ 4194304

instance (f : FloatText) (j : Json) : Decidable (Light f j) := inferInstanceAs (Decidable (_ ≤ _))

/-- What of the runner's stream arrives: everything up to the first error or the first message of more than 4 MB, and
then an error and nothing more. -/
inductive Arrives (f : FloatText) : List (Except Status RunResponse) → List (Except Status RunResponse) → Prop
  | nil : Arrives f [] []
  | item {r rest seen} : Light f (encResponse r) → Arrives f rest seen → Arrives f (.ok r :: rest) (.ok r :: seen)
  | heavy {r rest} {e : Status} : ¬ Light f (encResponse r) → e.code = 11 → Arrives f (.ok r :: rest) [.error e]
  | error {e rest} : Arrives f (.error e :: rest) [.error e]

/-- A message of the runner as the stream of the step is to hear of it. -/
def told : RunResponse → Told
  | .log _ ⟨.error, s⟩ => .error s
  | .log _ ⟨.log, s⟩ => .log s
  | .result _ r => .fin r

/-- What the caller gets if the implementation answers with this. -/
def Answered (f : FloatText) (m : Method) (given got : Except Status m.Answer) : Prop :=
  match m, given, got with
  | _, .error e, got => got = .error e
  | .run, .ok items, got => ∃ seen, got = .ok seen ∧ Arrives f items seen
  | .getRunnerMetadata, .ok r, got => if Light f (encMeta r) then got = .ok r else ∃ e, got = .error e ∧ e.code = 11
  | .callBeforeRunStepHook, .ok r, got =>
    if Light f (encCommand r) then got = .ok r else ∃ e, got = .error e ∧ e.code = 11
  | .sendEvent, .ok r, got => got = .ok r

end AstroRun.Wire
