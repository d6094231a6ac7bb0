import Verif.Spec.Remote

/-! # Vocabulary: the server's side of a remote execution -/

namespace AstroRun.Spec
open AstroRun

/-- The moves of the server's own task. -/
def isServerMove : RemoteAct → Bool
  | .srvRunOk | .srvRunErr | .srvPoll | .srvResult | .srvSend | .srvSendErr => true
  | _ => false

/-- The request has reached the server and its task is not over. -/
def ServerBusy (m : RemoteRun) : Prop := m.srv ≠ .idle ∧ m.srv ≠ .dead

/-- The runner on the server has ended its stream. -/
def RunnerEnded (acts : List RemoteAct) : Prop := ∃ r, .runnerEnd r ∈ acts

/-- Nobody reads the server's messages any more. -/
def ReaderGone (acts : List RemoteAct) : Prop := .rxDrop ∈ acts

end AstroRun.Spec
