import Verif.Spec.Store

/-!
# Specification: renaming identifiers
-/

namespace CMacro.Spec

/-- `ρ` gives every name occurring in the words a name of its own and leaves all other words alone. -/
structure RenamesAll (nameOf : Str → Option Str) (ρ : Str → Str) (words : List Str) : Prop where
  inj : ∀ a b, ρ a = ρ b → a = b
  empty : ρ [] = []
  dots : ρ c!"..." = c!"..."
  names : ∀ w ∈ words, nameOf (ρ w) = (nameOf w).map ρ
  others : ∀ w ∈ words, nameOf w = none → ρ w = w

/-- The same call with all words renamed. -/
def Op.rename (ρ : Str → Str) : Op → Op
  | .defineVar n b => .defineVar (ρ n) (b.map ρ)
  | .defineFn n p b => .defineFn (ρ n) (p.map ρ) (b.map ρ)
  | .undefineVar n => .undefineVar (ρ n)
  | .undefineFn n => .undefineFn (ρ n)

/-- The words of the body of a definition. -/
def Op.body : Op → List Str
  | .defineVar _ b => b
  | .defineFn _ _ b => b
  | _ => []

/-- The parameters of a definition. -/
def Op.params : Op → List Str
  | .defineFn _ p _ => p
  | _ => []

/-- The same definition with all words renamed. -/
def Def.rename (ρ : Str → Str) : Def → Def
  | .var b => .var (b.map ρ)
  | .fn p b => .fn (p.map ρ) (b.map ρ)

/-- All words of the bodies and parameter lists. -/
def allWords (h : List Op) : List Str := h.flatMap fun o => o.params ++ o.body

end CMacro.Spec
