import Verif.Model.SignalMany

/-! # Specification vocabulary for a signal that many tasks wait for -/

namespace AstroRun.Spec

/-- States reachable from a fresh signal. -/
def ManyReach (m : SigMany) : Prop := ∃ acts, runs SigMany.step {} acts = some m

/-- Task `i` was told `v`. -/
def Told (m : SigMany) (i : Nat) (v : Signal) : Prop := m.tasks[i]? = some (.awaiting (.got v))

/-- Task `i` sleeps: only a waker makes it go on. -/
def Sleeps (m : SigMany) (i : Nat) : Prop := m.tasks[i]? = some (.awaiting .parked)

/-- Task `i` will be polled by its executor. -/
def Runnable (m : SigMany) (i : Nat) : Prop := m.tasks[i]? = some (.awaiting .runnable)

instance (m : SigMany) (i : Nat) (v : Signal) : Decidable (Told m i v) := inferInstanceAs (Decidable (_ = _))
instance (m : SigMany) (i : Nat) : Decidable (Sleeps m i) := inferInstanceAs (Decidable (_ = _))

/-- Task `i` sleeps and nothing that can happen ever changes that, except that it gives up. -/
def SleepsForever (m : SigMany) (i : Nat) : Prop :=
  Sleeps m i ∧ ∀ acts m', runs SigMany.step m acts = some m' → .drop i ∉ acts → Sleeps m' i

end AstroRun.Spec
