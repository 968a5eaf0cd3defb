import Verif.Spec.Lex
import Verif.Spec.Store
import Verif.Model.Token

/-!
# Renaming the parameters of macros
-/

namespace CMacro.Spec

/-- A name that a parameter may have. -/
def ParamName (E : Env) (s : Str) : Prop := IsIdent E.xidStart E.xidContinue s ∧ s ≠ c!"__VA_ARGS__"

/-- `ρ` renames some of the parameters `ps` and nothing else.  The new names differ from each other and from everything else in the
parameter list and in the body. -/
structure Renames (E : Env) (ρ : Str → Str) (ps body : List Str) : Prop where
  only : ∀ s, ρ s ≠ s → s ∈ ps ∧ ParamName E s ∧ ParamName E (ρ s)
  apart : ∀ s ∈ ps ++ body, ∀ t ∈ ps ++ body, ρ s = ρ t → s = t
  noEscape : ∀ s ∈ ps, '\\' ∉ s

/-- The second definition is the first one, possibly with other names for the parameters. -/
inductive SameDef (E : Env) : Option Def → Option Def → Prop
  | none : SameDef E none none
  | var {body} : SameDef E (some (.var body)) (some (.var body))
  | fn {ρ ps body} : Renames E ρ ps body → SameDef E (some (.fn ps body)) (some (.fn (ps.map ρ) (body.map ρ)))

/-- The same result, or in both cases the complaint that a name is used for two parameters. -/
def Alike {α : Type} (r r' : Res α) : Prop :=
  r = r' ∨ ∃ d d', r = .error (.err (.nonUniqueArgument d)) ∧ r' = .error (.err (.nonUniqueArgument d'))

/-- The token with the new name. -/
def renamedToken (ρ : Str → Str) : MacroToken → MacroToken
  | .ident id => .ident (ρ id)
  | t => t

end CMacro.Spec
