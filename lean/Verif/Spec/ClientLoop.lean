import Verif.Model.ClientLoop
import Verif.Spec.SelectLoop

/-! # Specification vocabulary: the loop of the remote client -/

namespace AstroRun.Spec
open AstroRun

/-- The call has been accepted: the loop begins.  The server may have done anything meanwhile; the step's signal, which only
this task waits for, may have been set. -/
structure CliStart (m : CliLoop) : Prop where
  pc : m.pc = .top
  streaming : m.run.cli = .streaming
  waits : m.waits = false
  broken : m.broken = none
  fresh : m.run.sig.isNotified = false
  nobody : m.run.sig.waker = none
  unsent : m.run.sigSent = []

/-- What the loop gets to by schedule `acts`. -/
def CliReach (m0 : CliLoop) (acts : List CliAct) (m : CliLoop) : Prop := CliStart m0 ∧ runs CliLoop.step m0 acts = some m

/-- The client's task is asleep: its last poll returned `Pending` and nothing has woken it since. -/
def CliAsleep (m : CliLoop) : Prop := m.pc = .pending ∧ m.woken = false

/-- The server has ended the response stream and the transport has taken all of it. -/
def ReplyEnded (r : RemoteRun) : Prop := r.srv = .dead ∧ r.queue = [] ∧ r.dropped = false

/-- The response stream has something to say: a message has arrived, it has ended, or the connection broke. -/
def ReplyReady (m : CliLoop) : Prop := m.run.chan ≠ [] ∨ ReplyEnded m.run ∨ m.broken ≠ none

/-- A signal was set and the client has not received it. -/
def SignalWaiting (r : RemoteRun) : Prop := r.sig.signal ≠ none ∧ r.sig.isNotified = false

/-- Moves of the client's task. -/
def clientMove : CliAct → Bool
  | .select _ | .poll | .park | .repoll _ | .sent _ | .check => true
  | _ => false

/-- The same execution but for who waits for the step's signal. -/
def SameCallState (r r' : RemoteRun) : Prop := r' = { r with sig := r'.sig } ∧ SameSignal r.sig r'.sig

/-- The moves of the surroundings in a schedule of the loop. -/
def outsideOf : CliAct → Option RemoteAct
  | .env a => some a
  | _ => none

/-- Moves of `RemoteRun` once the call was accepted. -/
def inCall : RemoteAct → Bool
  | .cliNext | .netErr _ | .cliSignal | .sigOk | .sigErr | .check => true
  | a => a.outside

end AstroRun.Spec
