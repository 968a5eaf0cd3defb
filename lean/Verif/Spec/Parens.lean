import Verif.Spec.Trees

/-!
# Parentheses around definitions
-/

namespace CMacro.Spec

/-- A text in parentheses. -/
def wrapped (ws : List Str) : List Str := c!"(" :: (ws ++ [c!")"])

/-- A definition, in parentheses if the name is one of `P`. -/
def Def.wrap (P : List Str) (x : Str) : Def → Def
  | .var b => .var (if x ∈ P then wrapped b else b)
  | .fn ps b => .fn ps (if x ∈ P then wrapped b else b)

/-- The same header, with parentheses around the definitions of the macros `P`. -/
def Op.wrap (P : List Str) : Op → Op
  | .defineVar x b => .defineVar x (if x ∈ P then wrapped b else b)
  | .defineFn x ps b => .defineFn x ps (if x ∈ P then wrapped b else b)
  | o => o

/-- A text that is neither a name, nor a call, nor a type: it does not begin with a name, or an operator follows the name (`*` could be
part of a type). -/
def Composite (E : Env) (ws : List Str) : Prop :=
  ∃ w rest, ws = w :: rest ∧ (¬ IsIdent E.xidStart E.xidContinue w ∨
    ∃ v rest', rest = v :: rest' ∧ ¬ IsIdent E.xidStart E.xidContinue v ∧ v ≠ c!"(" ∧ v ≠ c!"*")

end CMacro.Spec
