import Verif.Model.JsonText
import Verif.Spec.Wire

/-! # Specification vocabulary: JSON values and messages that survive their text -/

namespace AstroRun.Wire

mutual
/-- How many arrays and objects are open at once in the text. -/
def depth : Json → Nat
  | .arr l => 1 + depthAll l
  | .obj l => 1 + depthFields l
  | _ => 0
def depthAll : List Json → Nat
  | [] => 0
  | j :: js => max (depth j) (depthAll js)
def depthFields : List (String × Json) → Nat
  | [] => 0
  | (_, j) :: es => max (depth j) (depthFields es)
end

/-- An integer of a Rust type of at most 64 bits. -/
def IntFits (n : Int) : Prop := -2 ^ 63 ≤ n ∧ n < 2 ^ 64

/-- A number text with a sign or none, digits without a leading zero, and a fraction or an exponent. -/
def IsFloatText (t : List Char) : Prop :=
  ∃ sign ds tail, t = sign ++ (ds ++ tail) ∧ (sign = [] ∨ sign = ['-']) ∧ ds ≠ [] ∧ (∀ c ∈ ds, c.isDigit = true) ∧
    (ds.head? = some '0' → ds = ['0']) ∧ tail ≠ [] ∧ validTail tail = true ∧ (∀ c ∈ tail, isNumChar c = true)

/-- The float survives its text: it is written as a float, and read back as the same float. -/
def FloatFits (f : FloatText) (s : String) : Prop :=
  IsFloatText (f.write s).toList ∧ f.read (f.write s) = some s

mutual
/-- Every number in the value survives its text. -/
def Fits (f : FloatText) : Json → Prop
  | .int n => IntFits n
  | .float s => FloatFits f s
  | .arr l => FitsAll f l
  | .obj l => FitsFields f l
  | _ => True
def FitsAll (f : FloatText) : List Json → Prop
  | [] => True
  | j :: js => Fits f j ∧ FitsAll f js
def FitsFields (f : FloatText) : List (String × Json) → Prop
  | [] => True
  | (_, j) :: es => Fits f j ∧ FitsFields f es
end

/-! ## Messages whose numbers are those of their Rust types -/

/-- `usize`, `u64` -/
def U64 (n : Nat) : Prop := n < 2 ^ 64
/-- `i32`, `i64` -/
def I64 (n : Int) : Prop := -2 ^ 63 ≤ n ∧ n < 2 ^ 63

/-- The finite numbers in an environment are floats that survive their text. -/
def EnvFits (f : FloatText) (e : EnvironmentVariables) : Prop :=
  ∀ k n, (k, EnvironmentVariable.number n) ∈ e → notFinite n = false → FloatFits f n

def CommandFits (f : FloatText) (c : Command) : Prop :=
  U64 c.id.number ∧ U64 (c.timeout / 1000000000) ∧ EnvFits f c.environments
def StepFits (f : FloatText) (s : Step) : Prop :=
  U64 s.id.number ∧ U64 (s.timeout / 1000000000) ∧ EnvFits f s.environments
def JobFits (f : FloatText) (j : Job) : Prop := ∀ s ∈ j.steps, StepFits f s
def WorkflowFits (f : FloatText) (w : Workflow) : Prop := ∀ e ∈ w.jobs, JobFits f e.2
def TriggerFits (t : Option TriggerEvent) : Prop := ∀ e n, t = some e → e.prNumber = some n → I64 n
def StepResultFits (r : StepRunResult) : Prop := U64 r.id.number ∧ ∀ n, r.exitCode = some n → I64 n
def JobResultFits (r : JobRunResult) : Prop := ∀ s ∈ r.steps, StepResultFits s
def WorkflowResultFits (r : WorkflowRunResult) : Prop := ∀ e ∈ r.jobs, JobResultFits e.2
/-- The user's payload: its numbers survive, and it is not nested too deeply. -/
def PayloadFits {Pl : Type} (f : FloatText) (x : Ext Pl) (p : Option Pl) : Prop :=
  ∀ a, p = some a → Fits f (x.encPayload a) ∧ depth (x.encPayload a) ≤ 120
def RunEventFits {α Pl : Type} (f : FloatText) (x : Ext Pl) (src : α → Prop) (e : RunEvent α Pl) : Prop :=
  src e.source ∧ TriggerFits e.triggerEvent ∧ PayloadFits f x e.payload

/-- Every number of the event is one of its Rust type. -/
def EventFits {Pl : Type} (f : FloatText) (x : Ext Pl) : ProtocolEvent Pl → Prop
  | .runStep e => RunEventFits f x (StepFits f) e
  | .runJob e => RunEventFits f x (JobFits f) e
  | .runWorkflow e => RunEventFits f x (WorkflowFits f) e
  | .stepCompleted r => StepResultFits r
  | .jobCompleted r => JobResultFits r
  | .workflowCompleted r => WorkflowResultFits r
  | .stepLog l => U64 l.stepId.number
  | .stateChange (.step i _) => U64 i.number
  | .stateChange _ => True
  | .signal e => U64 e.stepId.number

def ContextFits (f : FloatText) (c : Context) : Prop :=
  U64 c.id.number ∧ CommandFits f c.command ∧ TriggerFits c.event

def ResponseFits : RunResponse → Prop
  | .log i _ => U64 i.number
  | .result i (.failed c) => U64 i.number ∧ I64 c
  | .result i _ => U64 i.number

end AstroRun.Wire
