import Verif.Spec.FnValue

/-!
# Specification: expressions whose types code generation finds
-/

namespace CMacro.Spec

/-- An expression that is a condition: a comparison, or conditions joined or negated. -/
def isCondition : Expr → Bool
  | .bin _ op _ => (op ∈ [.eq, .neq, .lt, .lte, .gt, .gte, .and, .or] : Bool)
  | .un .not e => isCondition e
  | _ => false

/-- Operators whose operands have the type of the result, and comparisons. -/
def plainOps : List BinOp :=
  [.mul, .div, .rem, .add, .sub, .bitAnd, .bitXor, .bitOr, .eq, .neq, .lt, .lte, .gt, .gte, .and, .or]

/-- Expressions over numbers and parameters in which all floating types are `k`, shifts are by constants, and `!` is
applied to conditions. -/
inductive PlainTypes (P : PCtx) (k : List RTok) : Expr → Prop
  | int {i} : PlainTypes P k (.lit (.int i))
  | float {f} : floatText f = k → PlainTypes P k (.lit (.float f))
  | param {i} : PlainTypes P k (.var (.arg i))
  | un {op e} : op = .minus ∨ op = .comp → PlainTypes P k e → PlainTypes P k (.un op e)
  | not {e} : isCondition e = true → PlainTypes P k e → PlainTypes P k (.un .not e)
  | bin {l op r} : op ∈ plainOps → PlainTypes P k l → PlainTypes P k r → PlainTypes P k (.bin l op r)
  | shift {l op r} : op = .shl ∨ op = .shr → constant r = true → PlainTypes P k l → PlainTypes P k r → PlainTypes P k (.bin l op r)
  | cast {b e} : b ≠ .void → TypeText ((Ty.builtIn b).toks P) → (FloatText ((Ty.builtIn b).toks P) → (Ty.builtIn b).toks P = k) → PlainTypes P k e →
      PlainTypes P k (.cast (.builtIn b) e)
  | ternary {c t f} : PlainTypes P k c → PlainTypes P k t → PlainTypes P k f → PlainTypes P k (.ternary c t f)

end CMacro.Spec
