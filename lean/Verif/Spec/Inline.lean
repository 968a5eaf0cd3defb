import Verif.Spec.Alias

/-!
# Writing out a macro by hand
-/

namespace CMacro.Spec

/-- The text with `b` in place of every word that is read as the name `x`. -/
def writeOut (nameOf : Str → Option Str) (x : Str) (b : List Str) (ws : List Str) : List Str :=
  ws.flatMap fun w => if nameOf w = some x then b else [w]

end CMacro.Spec
