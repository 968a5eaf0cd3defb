import Verif.Model.Ast

/-!
# Specification: integer constant expressions

Values of C integer constant expressions as mathematical integers (C11 6.5.3.3, 6.5.5 - 6.5.7,
6.5.10 - 6.5.12), without the conversions between integer types.  Nothing here refers to the
constant folding code.
-/

namespace CMacro.Spec

/-- The accumulator of the code is an `i128`. -/
def I128 (v : Int) : Prop := -170141183460469231731687303715884105728 ≤ v ∧ v < 170141183460469231731687303715884105728

/-- Bit `i` of the two's complement representation. -/
def bit (v : Int) (i : Nat) : Prop := v / 2 ^ i % 2 = 1

/-- `BinValue op a b v`: the value of `a op b` is `v`. -/
inductive BinValue : BinOp → Int → Int → Int → Prop
  | add {a b} : BinValue .add a b (a + b)
  | sub {a b} : BinValue .sub a b (a - b)
  | mul {a b} : BinValue .mul a b (a * b)
  | div {a b q r : Int} : b ≠ 0 → a = b * q + r → r.natAbs < b.natAbs → (r = 0 ∨ (0 < r ↔ 0 < a)) → BinValue .div a b q
  | rem {a b q r : Int} : b ≠ 0 → a = b * q + r → r.natAbs < b.natAbs → (r = 0 ∨ (0 < r ↔ 0 < a)) → BinValue .rem a b r
  | shl {a} {k : Nat} : k < 128 → BinValue .shl a k (a * 2 ^ k)
  | shr {a} {k : Nat} : k < 128 → BinValue .shr a k (a / 2 ^ k)
  | and {a b v : Int} : (∀ i, bit v i ↔ bit a i ∧ bit b i) → BinValue .bitAnd a b v
  | or {a b v : Int} : (∀ i, bit v i ↔ bit a i ∨ bit b i) → BinValue .bitOr a b v
  | xor {a b v : Int} : (∀ i, bit v i ↔ (bit a i ↔ ¬ bit b i)) → BinValue .bitXor a b v

/-- `Value e v`: `e` is an arithmetic expression over integer literals, its value is `v`, and all
values on the way fit the accumulator. -/
inductive Value : Expr → Int → Prop
  | lit {n : LitInt} : Value (.lit (.int n)) n.value.toInt
  | plus {e v} : Value e v → Value (.un .plus e) v
  | neg {e v} : Value e v → I128 (-v) → Value (.un .minus e) (-v)
  | bin {l r op a b v} : Value l a → Value r b → BinValue op a b v → I128 v → Value (.bin l op r) v

/-- No literal of the expression has a suffix. -/
def Unsuffixed : Expr → Prop
  | .lit (.int n) => n.suffix = none
  | .un _ e => Unsuffixed e
  | .bin l _ r => Unsuffixed l ∧ Unsuffixed r
  | _ => True

end CMacro.Spec
