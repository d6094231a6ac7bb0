import Verif.Model.CmdBytes
import Verif.Spec.LocalRun

/-! # Specification vocabulary: the output of a process as bytes -/

namespace AstroRun.Spec
open AstroRun

/-- `m` is a state of reading the output of a process that does `prog`, the pipes having capacity `cap`. -/
def OutputReach (cap : Nat) (prog : List Instr) (acts : List CmdAct) (m : CmdRun) : Prop :=
  runs CmdRun.step { cap := cap, todo := prog } acts = some m

/-- The bytes a process writes to `s` until it closes it. -/
def bytesTo (s : Fd) : List Instr → List UInt8
  | [] => []
  | .put s' b :: is => if s' = s then b :: bytesTo s is else bytesTo s is
  | .close s' :: is => if s' = s then [] else bytesTo s is
  | .exit _ :: is => bytesTo s is

/-- A line without the carriage return at its end. -/
def withoutCR (l : List UInt8) : List UInt8 := if l.getLast? = some 13 then l.dropLast else l

/-- The bytes of a text. -/
def utf8 (t : String) : List UInt8 := t.toUTF8.data.toList

/-- `bs` is not UTF-8. -/
def NotText (bs : List UInt8) : Prop := ∀ t : String, bs ≠ utf8 t

/-- `Shows bs ts`: the lines of the output `bs` up to the first that is not UTF-8 are, as texts, `ts`.  Lines end with a
newline (byte 10), perhaps preceded by a carriage return (13); what follows the last newline is a line too, unless it is
empty. -/
inductive Shows : List UInt8 → List String → Prop
  | nil : Shows [] []
  | line {l rest : List UInt8} {t : String} {ts : List String} :
      10 ∉ l → utf8 t = withoutCR l → Shows rest ts → Shows (l ++ 10 :: rest) (t :: ts)
  | last {l : List UInt8} {t : String} : l ≠ [] → 10 ∉ l → utf8 t = l → Shows l [t]
  | bad {l rest : List UInt8} : 10 ∉ l → NotText l → Shows (l ++ 10 :: rest) []
  | badLast {l : List UInt8} : 10 ∉ l → NotText l → Shows l []

/-- A process that leaves both pipes open until it has written everything, and then ends with `code`. -/
def Proper (prog : List Instr) (code : Option Int) : Prop :=
  ∃ writes ends, prog = writes ++ ends ∧ (∀ i ∈ writes, ∃ s b, i = .put s b) ∧
    (∀ i ∈ ends, (∃ s, i = .close s) ∨ i = .exit code) ∧ .close .out ∈ ends ∧ .close .err ∈ ends ∧ .exit code ∈ ends

/-- No read from a pipe fails. -/
def noReadFail (acts : List CmdAct) : Prop := ∀ s e, .readFail s e ∉ acts

/-- Nothing can happen any more. -/
def Deadlock (m : CmdRun) : Prop := m.pc ≠ .over ∧ ∀ a, m.step a = none

/-- The moves of `LocalRun` that `run` and the process make after the spawn. -/
def cmdMove : LocalAct → Bool
  | .readOut | .readErr | .readOutFail _ | .readErrFail _ | .waitOk | .childOut _ | .childErr _ | .closeOut | .closeErr | .exit _ => true
  | _ => false

end AstroRun.Spec
