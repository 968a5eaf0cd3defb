import Verif.Model.Observe
import Verif.Spec.Expand

/-! # Specification: function-like macros on their own, and calls of them -/

namespace CMacro
open Spec (Item)

/-- The token that becomes of an item in a macro with these parameters: the position of the
parameter, or the token it always becomes. -/
def outToken (E : Env) (params : List Str) : Item → Option MacroToken
  | .name id _ => some (.ident id)
  | .other s => match Spec.paramIndex params s with
    | some i => some (.arg i)
    | none => if s = c!"__VA_ARGS__" then some (.arg params.length) else classify E s

/-- Tokens with arguments in place of parameters. -/
def place (args : List (List MacroToken)) : MacroToken → List MacroToken
  | .arg i => args.getD i []
  | t => [t]

/-- Pieces of text with commas between them. -/
def withCommas : List (List Str) → List Str
  | [] => []
  | [a] => a
  | a :: as => a ++ c!"," :: withCommas as

/-- The text of a call. -/
def callText (f : Str) (as : List (List Str)) : List Str := f :: c!"(" :: withCommas as ++ [c!")"]

end CMacro
