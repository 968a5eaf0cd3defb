import Verif.Spec.Grammar
import Verif.Model.Rust

/-!
# Parentheses around names

Words for properties C40 and C58.
-/

namespace CMacro.Spec

/-- The operators that are both binary and prefix. -/
def dualOps : List (Str × UnOp × Nat × BinOp) :=
  [(c!"*", .deref, 2, .mul), (c!"+", .plus, 3, .add), (c!"-", .minus, 3, .sub), (c!"&", .addrOf, 7, .bitAnd)]

/-- Trees of binary operators over names. -/
def NameTree : Expr → Prop
  | .var (.plain _) => True
  | .var (.arg _) => True
  | .bin a op b => (∃ ℓ p, (ℓ, p, op) ∈ binaryOps) ∧ NameTree a ∧ NameTree b
  | _ => False

/-- The names whose types code generation knows in every context. -/
def typedNames : List Str :=
  [c!"__LINE__", c!"__FILE__", c!"__SCHAR_MAX__", c!"__SHRT_MAX__", c!"__INT_MAX__", c!"__LONG_MAX__", c!"__LONG_LONG_MAX__"]

/-- Trees over names of unknown types, without comparisons. -/
def Untyped (C : Ctx) (name : Str) (params : List Str) : Expr → Prop
  | .var (.plain x) => x ∉ typedNames ∧ C.resolveEnumVariant x = none
  | .var (.arg i) => ∀ a, params[i]? = some a → C.macroArgTy name a = none
  | .bin a op b => op ∉ [.lt, .lte, .gt, .gte, .eq, .neq] ∧ Untyped C name params a ∧ Untyped C name params b
  | _ => True

/-- `x (p₁ x₁) (p₂ x₂) …`, each name in parentheses. -/
def chain (x : Nat) : List (Str × Nat) → List MacroToken
  | [] => [.punct c!"(", .arg x, .punct c!")"]
  | (p, y) :: l => .punct c!"(" :: .arg x :: .punct c!")" :: .punct p :: chain y l

/-- `((x op₁ x₁) op₂ x₂) …` -/
def leftNested (e : Expr) : List (BinOp × Nat) → Expr
  | [] => e
  | (op, y) :: l => leftNested (.bin e op (.var (.arg y))) l

/-- `x op₁ (x₁ op₂ (x₂ …))` -/
def rightNested (x : Nat) : List (BinOp × Nat) → Expr
  | [] => .var (.arg x)
  | (op, y) :: l => .bin (.var (.arg x)) op (rightNested y l)

end CMacro.Spec
