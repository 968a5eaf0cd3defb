import Verif.Spec.Store
import Verif.Model.Basic

/-!
# Which definitions an expansion can look at
-/

namespace CMacro.Spec

/-- The words of the body of a definition. -/
def Def.words : Def → List Str
  | .var body => body
  | .fn _ body => body

/-- `T` contains every word that can come up: with the name of a macro the words of its body, and, if tokens are pasted, the pasted
words.  Words with a backslash are strings and characters, no universal character names. -/
structure Closed (T : Str → Prop) (D : Str → Option Def) : Prop where
  bodies : ∀ n d, T n → D n = some d → ∀ w ∈ d.words, T w
  pasted : T c!"##" → ∀ s t, T s → T t → T (s ++ t)
  noEscape : ∀ w, T w → '\\' ∈ w → '"' ∈ w ∨ '\'' ∈ w

end CMacro.Spec
