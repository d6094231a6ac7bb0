import Verif.Model.Payload
import Verif.Spec.JsonText

/-! # Specification vocabulary: payloads -/

namespace AstroRun.Wire

/-- The payload's type has a name of its own and is registered, and its value survives JSON: it is written, its numbers
survive their text, it is not nested too deeply, and what is read is the value. -/
def Faithful {g : Program} (f : FloatText) (p : Payload g) : Prop :=
  g.registered.filter (fun t => (g.info t).name == (g.info p.ty).name) = [p.ty] ∧
    ∃ j, (g.info p.ty).ser p.val = some j ∧ Fits f j ∧ depth j ≤ 126 ∧ (g.info p.ty).de j = some p.val

/-- Everybody who was told got this. -/
def AllGot {g : Program} (d : Delivered g) (n : Nat) (p : Option (Payload g)) : Prop :=
  d.plugins = List.replicate n p ∧ d.runner = p

end AstroRun.Wire
