import Verif.Spec.Reach
import Verif.Spec.Expand

/-!
# Names for other macros
-/

namespace CMacro.Spec

/-- `x` mentions `y` in its definition, or a macro that it mentions does. -/
inductive Uses (nameOf : Str → Option Str) (D : Table) : Str → Str → Prop
  | word {x d w y} : D x = some d → w ∈ d.words → nameOf w = some y → Uses nameOf D x y
  | trans {x y z} : Uses nameOf D x y → Uses nameOf D y z → Uses nameOf D x z

end CMacro.Spec
