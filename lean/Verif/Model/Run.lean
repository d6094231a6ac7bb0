/-!
# Schedules

A concurrent part of the program is modelled by a partial step function `step : σ → α → Option σ`
(`none`: the move is not possible in this state).  A schedule is any list of moves.
-/

namespace AstroRun

/-- Execute a schedule. -/
def runs {σ α : Type} (step : σ → α → Option σ) : σ → List α → Option σ
  | s, [] => some s
  | s, a :: as => match step s a with
    | some s' => runs step s' as
    | none => none

end AstroRun
