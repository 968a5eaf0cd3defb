import Verif.Model.Print

/-!
# Observing code generation

The depth bound of `generate` is an artefact of the model; a call returns what it returns for all
large bounds (`C55_codegen_terminates` shows that there always is such a result).
-/

namespace CMacro

/-- The call `m.generate(cx)` (/repo/src/var_macro.rs:50-97) returns `r`. -/
def VarMacro.Generates (C : Ctx) (m : VarMacro) (r : CgRes (List RTok × Option (List RTok))) : Prop :=
  ∃ N, ∀ n ≥ N, m.generate n C = r

/-- The call `m.generate(cx)` (/repo/src/fn_macro.rs:149-261) returns `r`. -/
def FnMacro.Generates (C : Ctx) (m : FnMacro) (r : CgRes GenFn) : Prop :=
  ∃ N, ∀ n ≥ N, m.generate n C = r

end CMacro
