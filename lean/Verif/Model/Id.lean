import Verif.Model.Types

/-!
# Identifiers and their text form

crates/astro-run/src/types/id.rs:61-126
-/

namespace AstroRun

/-- `str::split('/')` followed by `collect` (used in id.rs:95, 110): the pieces between slashes; always
at least one piece. -/
def splitSlash : List Char → List (List Char)
  | [] => [[]]
  | c :: cs =>
    if c = '/' then [] :: splitSlash cs
    else match splitSlash cs with
      | [] => [[c]]
      | p :: ps => (c :: p) :: ps

/-- `2^64`, one more than the largest `usize` (64-bit targets). -/
def usizeBound : Nat := 18446744073709551616

/-- The digits of a decimal number, value below `usizeBound`, at least one digit. -/
def parseDigits (cs : List Char) : Option Nat :=
  if cs.isEmpty || !cs.all Char.isDigit then none
  else
    let n := Nat.ofDigitChars 10 cs 0
    if n < usizeBound then some n else none

/-- `str::parse::<usize>()` (id.rs:116-118): an optional leading `+`, then decimal digits without overflow. -/
def parseUsize : List Char → Option Nat
  | '+' :: cs => parseDigits cs
  | cs => parseDigits cs

/-- crates/astro-run/src/types/id.rs:61-65 -/
def WorkflowId.toStr (w : WorkflowId) : String := w.id

/-- crates/astro-run/src/types/id.rs:67-71 -/
def JobId.toStr (j : JobId) : String := j.workflow ++ "/" ++ j.job

/-- crates/astro-run/src/types/id.rs:73-77 -/
def StepId.toStr (s : StepId) : String := s.workflow ++ "/" ++ s.job ++ "/" ++ s.number.repr

/-- crates/astro-run/src/types/id.rs:79-89 -/
def WorkflowId.parse (s : String) : Except Error WorkflowId :=
  if s.toList.isEmpty then .error (.internalRuntimeError "WorkflowId cannot be empty")
  else .ok ⟨s⟩

/-- crates/astro-run/src/types/id.rs:91-104 -/
def JobId.parse (s : String) : Except Error JobId :=
  match splitSlash s.toList with
  | [a, b] => .ok ⟨String.ofList a, String.ofList b⟩
  | _ => .error (.internalRuntimeError "JobId must be in the format of <workflow_id>/<job_key>")

/-- crates/astro-run/src/types/id.rs:106-126 -/
def StepId.parse (s : String) : Except Error StepId :=
  match splitSlash s.toList with
  | [a, b, c] =>
    match parseUsize c with
    | some n => .ok ⟨String.ofList a, String.ofList b, n⟩
    | none => .error (.internalRuntimeError "Step number must be a number")
  | _ => .error (.internalRuntimeError
      "StepId must be in the format of <workflow_id>/<job_key>/<step_number>")

end AstroRun
