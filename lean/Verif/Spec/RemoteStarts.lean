import Verif.Model.RemoteStarts

/-! # Specification vocabulary: a client that is started more than once -/

namespace AstroRun.Spec

/-- The client got into `m` by these moves. -/
def StartsReach (acts : List StartAct) (m : Starts) : Prop := runs Starts.step {} acts = some m

/-- The events runner `id` was sent by call `i`, in order. -/
def sentBy (m : Starts) (i : Nat) (id : Id) : List Nat :=
  m.delivered.filterMap fun d => if d.1 = i ∧ d.2.1 = id then some d.2.2 else none

/-- The events runner `id` heard of, in order. -/
def heardBy (m : Starts) (id : Id) : List Nat := m.delivered.filterMap fun d => if d.2.1 = id then some d.2.2 else none

/-- The calls of `start` so far. -/
def startCount (acts : List StartAct) : Nat := acts.count .start

/-- The list goes up. -/
def Ascending : List Nat → Prop := List.Pairwise (· < ·)

end AstroRun.Spec
