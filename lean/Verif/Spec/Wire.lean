import Verif.Model.Wire

/-! # Specification vocabulary: messages that can be sent

A `HashMap` has one entry per key; a number in an environment is finite. -/

namespace AstroRun.Wire

/-- The other crates keep their part of the bargain. -/
structure Ext.Lawful {Pl : Type} (x : Ext Pl) : Prop where
  time : ∀ t, x.parseTime (x.showTime t) = some t
  payload : ∀ p, x.decPayload (x.encPayload p) = some p
  payloadObject : ∀ p, x.encPayload p ≠ .null

/-- No two entries with one key. -/
def IsMap {α : Type} (l : List (String × α)) : Prop := (l.map Prod.fst).Nodup

/-- A map whose numbers are finite. -/
def FiniteEnv (e : EnvironmentVariables) : Prop :=
  IsMap e ∧ ∀ k n, (k, EnvironmentVariable.number n) ∈ e → n ≠ "NaN" ∧ n ≠ "inf" ∧ n ≠ "-inf"

def StepSendable (s : Step) : Prop := FiniteEnv s.environments
def JobSendable (j : Job) : Prop := ∀ s ∈ j.steps, StepSendable s
def WorkflowSendable (w : Workflow) : Prop := IsMap w.jobs ∧ ∀ e ∈ w.jobs, JobSendable e.2

/-- What must hold of an event. -/
def EventSendable {Pl : Type} : ProtocolEvent Pl → Prop
  | .runStep e => StepSendable e.source
  | .runJob e => JobSendable e.source
  | .runWorkflow e => WorkflowSendable e.source
  | .workflowCompleted r => IsMap r.jobs
  | _ => True

end AstroRun.Wire
