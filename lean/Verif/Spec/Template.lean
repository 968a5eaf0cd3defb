import Verif.Spec.Lex
import Verif.Model.Print

/-!
# Generated code as a template for the names of the parameters
-/

namespace CMacro.Spec

/-- A token of a template: a fixed token, or the name of a parameter. -/
inductive HTok
  | tok (t : RTok)
  | param (i : Nat)

/-- The token for given names of the parameters. -/
def HTok.fill (qs : List Str) : HTok → RTok
  | .tok t => t
  | .param i => .id (qs.getD i [])

/-- The text for given names of the parameters. -/
def fillText (qs : List Str) (T : List HTok) : List RTok := T.map (HTok.fill qs)

/-- A template for a generated macro or function. -/
inductive GenTemplate
  | macro (name : Str) (params : List (List HTok)) (body : List HTok)
  | fn (name : Str) (args : List (List HTok)) (ret : Option (List HTok)) (body : List HTok)

/-- The macro or function for given names of the parameters. -/
def GenTemplate.fill (qs : List Str) : GenTemplate → GenFn
  | .macro name params body => .macro name (params.map (fillText qs)) (fillText qs body)
  | .fn name args ret body => .fn name (args.map (fillText qs)) (ret.map (fillText qs)) (fillText qs body)

/-- `qs` are names for `k` parameters of the macro `m`: identifiers, except that the names at `dots` are `...`.  The context declares
the type `types i` for the parameter at `i`, or none. -/
structure ParamList (C : Ctx) (m : Str) (k : Nat) (dots : Nat → Prop) (types : Nat → Option RTy) (qs : List Str) : Prop where
  length : qs.length = k
  ellipsis : ∀ i, i < k → (qs[i]? = some c!"..." ↔ dots i)
  ident : ∀ i q, qs[i]? = some q → ¬ dots i → IsIdent C.env.xidStart C.env.xidContinue q
  declared : ∀ i q, qs[i]? = some q → C.macroArgTy m q = types i

end CMacro.Spec
