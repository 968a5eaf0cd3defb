import Verif.Model.Generate
import Verif.Model.History

/-!
# The steps of a user of the library

`MacroSet::expand_var_macro` / `expand_fn_macro`, then `VarMacro::parse` / `FnMacro::parse`, then
`generate`, in the way /repo/tests/headers.rs:168-197 does it.  The depth bound is shared.
-/

namespace CMacro

/-- What the whole pipeline can report: an expansion failure, a parse error, or the result of
`generate` (/repo/src/macro_set/mod.rs:59-87, /repo/src/error.rs:5-12,28-39). -/
inductive PipeRes (α : Type)
  | expand (e : Fail)
  | parse (e : ParserError)
  | gen (r : CgRes α)
  deriving DecidableEq, Repr

/-- /repo/tests/headers.rs:181-196: a variable-like macro from its definition to Rust tokens. -/
def pipeVar (n : Nat) (C : Ctx) (h : List Spec.Op) (name : Str) : PipeRes (List RTok × Option (List RTok)) :=
  match (MacroSet.run h).expandVar C.env n name with
  | .error e => .expand e
  | .ok ts =>
    match VarMacro.parse C.env name ts with
    | .error e => .parse e
    | .ok m => .gen (m.generate n C)

/-- /repo/tests/headers.rs:169-179: a function-like macro from its definition to Rust tokens. -/
def pipeFn (n : Nat) (C : Ctx) (h : List Spec.Op) (name : Str) : PipeRes GenFn :=
  match (MacroSet.run h).expandFn C.env n name with
  | .error e => .expand e
  | .ok (as, ts) =>
    match FnMacro.parse C.env name as ts with
    | .error e => .parse e
    | .ok m => .gen (m.generate n C)

end CMacro
