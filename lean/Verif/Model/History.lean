import Verif.Model.MacroSet
import Verif.Spec.Store

/-!
# Call histories

Running a list of abstract calls (`Spec.Op`) on the model.
-/

namespace CMacro
open Spec (Op)

/-- One call on the model: dispatch to /repo/src/macro_set/mod.rs:758-779
(`define_var_macro`), 802-831 (`define_fn_macro`), 795-797 (`undefine_var_macro`),
856-858 (`undefine_fn_macro`). -/
def MacroSet.apply (ms : MacroSet) : Op → MacroSet × Bool
  | .defineVar n b => ms.defineVar n b
  | .defineFn n p b => ms.defineFn n p b
  | .undefineVar n => ms.undefineVar n
  | .undefineFn n => ms.undefineFn n

/-- The macro set after a history of calls on `MacroSet::new()`
(/repo/src/macro_set/mod.rs:424-426). -/
def MacroSet.run (h : List Op) : MacroSet := h.foldl (fun ms o => (ms.apply o).1) MacroSet.new

end CMacro
