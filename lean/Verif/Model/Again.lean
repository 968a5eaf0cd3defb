import Verif.Model.Generate

/-!
# What `generate` leaves behind

`generate` takes `&mut self`, and `finish` rewrites the body in place.
-/

namespace CMacro

/-- /repo/src/var_macro.rs:78-80: the macro after `VarMacro::generate`; the body is the one `finish`
has rewritten, also when it failed half way through. -/
def VarMacro.after (n : Nat) (C : Ctx) (m : VarMacro) : VarMacro :=
  match m.body with
  | .stmt s => ⟨m.name, .stmt s⟩
  | .expr e => ⟨m.name, .expr (e.finish C (varLoc C) n .init).tree⟩

/-- /repo/src/fn_macro.rs:155-172: the macro after `FnMacro::generate`; nothing is rewritten when
the type of a parameter cannot be read. -/
def FnMacro.after (n : Nat) (C : Ctx) (m : FnMacro) : FnMacro :=
  match argTypes C m.name m.args with
  | .error _ => m
  | .ok tys => ⟨m.name, m.args, (m.body.finish C (Expr.finish C (fnLoc m.args) n) ⟨tys, false⟩).tree⟩

/-- The call `m.generate(cx)` (/repo/src/var_macro.rs:50-97) turns `m` into `m'`. -/
def VarMacro.Leaves (C : Ctx) (m m' : VarMacro) : Prop := ∃ N, ∀ n ≥ N, m.after n C = m'

/-- The call `m.generate(cx)` (/repo/src/fn_macro.rs:149-261) turns `m` into `m'`. -/
def FnMacro.Leaves (C : Ctx) (m m' : FnMacro) : Prop := ∃ N, ∀ n ≥ N, m.after n C = m'

end CMacro
