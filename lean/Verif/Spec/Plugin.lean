import Verif.Model.Plugin

/-! # Specification vocabulary: observers -/

namespace AstroRun.Spec
open AstroRun

/-- Who is called for a notification, in order, when there are `n` plugins (positions `0..n-1`) and the
runner (position `n`): everybody, except that `Runner::run` itself only concerns the runner. -/
def recipients (n : Nat) : Event → List Nat
  | .runnerRun _ => [n]
  | _ => List.range (n + 1)

/-- All calls made for a sequence of notifications. -/
def callsFor (n : Nat) (es : List Event) : List (Nat × Event) :=
  es.flatMap fun e => (recipients n e).map fun i => (i, e)

/-- One before-step hook: its answer is taken if it succeeds, otherwise the step stays. -/
inductive Passes (o : Observer) (s : Step) : Step → Prop
  | ok (s') : o.onBeforeRunStep s = .ok s' → Passes o s s'
  | failed (e) : o.onBeforeRunStep s = .error e → Passes o s s

/-- A step passed through several hooks in order. -/
inductive PassesAll : List Observer → Step → Step → Prop
  | nil (s) : PassesAll [] s s
  | cons (o os s s' s'') : Passes o s s' → PassesAll os s' s'' → PassesAll (o :: os) s s''

end AstroRun.Spec
