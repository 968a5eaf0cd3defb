import Verif.Spec.Arith

/-!
# Specification: integer constant expressions with the types of C

C11 6.4.4.1 (types of integer constants), 6.3.1.1 (integer promotions), 6.3.1.8 (usual arithmetic conversions), 6.2.5p9 (unsigned operands wrap around),
6.5p5 (signed overflow has no value).  The widths of the types are parameters.
-/

namespace CMacro.Spec

/-- The standard integer types other than `char`, whose sign is up to the implementation, and `_Bool`.  Constants have the types
from `int` on. -/
inductive IntTy
  | schar | uchar | short | ushort | int | uint | long | ulong | llong | ullong
  deriving DecidableEq

/-- The widths of `short`, `int`, `long` and `long long`.  Characters have 8 bits. -/
structure Widths where
  short : Nat
  int : Nat
  long : Nat
  llong : Nat
  short_ge : 16 ≤ short
  int_ge : short ≤ int
  long_ge : int ≤ long
  llong_ge : long ≤ llong
  llong_le : llong ≤ 64

/-- The widths of most 64-bit systems. -/
def Widths.lp64 : Widths := ⟨16, 32, 64, 64, by decide, by decide, by decide, by decide, by decide⟩

/-- A type is unsigned. -/
def IntTy.unsigned : IntTy → Bool
  | .uchar | .ushort | .uint | .ulong | .ullong => true
  | _ => false

/-- The conversion rank of a type (6.3.1.1). -/
def IntTy.rank : IntTy → Nat
  | .schar | .uchar => 0
  | .short | .ushort => 1
  | .int | .uint => 2
  | .long | .ulong => 3
  | .llong | .ullong => 4

/-- The unsigned type of the same rank. -/
def IntTy.toUnsigned : IntTy → IntTy
  | .schar | .uchar => .uchar
  | .short | .ushort => .ushort
  | .int | .uint => .uint
  | .long | .ulong => .ulong
  | .llong | .ullong => .ullong

section
variable (W : Widths)

/-- The width of a type. -/
def IntTy.width : IntTy → Nat
  | .schar | .uchar => 8
  | .short | .ushort => W.short
  | .int | .uint => W.int
  | .long | .ulong => W.long
  | .llong | .ullong => W.llong

/-- A type can represent a value. -/
def IntTy.Holds (t : IntTy) (v : Int) : Prop :=
  if t.unsigned then 0 ≤ v ∧ v < 2 ^ t.width W else -2 ^ (t.width W - 1) ≤ v ∧ v < 2 ^ (t.width W - 1)

instance (t : IntTy) (v : Int) : Decidable (t.Holds W v) := by unfold IntTy.Holds; infer_instance

/-- The types that a constant can have, by its suffix and by whether it is written in decimal (6.4.4.1p5). -/
def candidates (decimal : Bool) : Option BuiltInType → List IntTy
  | none => if decimal then [.int, .long, .llong] else [.int, .uint, .long, .ulong, .llong, .ullong]
  | some .uInt => [.uint, .ulong, .ullong]
  | some .long => if decimal then [.long, .llong] else [.long, .ulong, .llong, .ullong]
  | some .uLong => [.ulong, .ullong]
  | some .longLong => if decimal then [.llong] else [.llong, .ullong]
  | some .uLongLong => [.ullong]
  | _ => []

/-- The type of a constant: the first in which its value can be represented. -/
def ConstTy (n : LitInt) (t : IntTy) : Prop :=
  ∃ decimal before after, candidates decimal n.suffix = before ++ t :: after ∧
    (∀ s ∈ before, ¬ s.Holds W n.value.toInt) ∧ t.Holds W n.value.toInt

/-- The integer promotions (6.3.1.1p2): a type of lower rank than `int` becomes `int`, or `unsigned int` if `int` cannot represent
all its values. -/
def IntTy.promote : IntTy → IntTy
  | .schar | .uchar | .short => .int
  | .ushort => if W.short < W.int then .int else .uint
  | t => t

/-- The common type of an unsigned and a signed operand. -/
def commonMixed (u i : IntTy) : IntTy :=
  if i.rank ≤ u.rank then u
  else if u.width W < i.width W then i
  else i.toUnsigned

/-- The common type of two promoted operands. -/
def commonWide (s t : IntTy) : IntTy :=
  if s.unsigned = t.unsigned then (if s.rank < t.rank then t else s)
  else if s.unsigned then commonMixed W s t
  else commonMixed W t s

/-- The common type of two operands (6.3.1.8). -/
def common (s t : IntTy) : IntTy := commonWide W (s.promote W) (t.promote W)

/-- `Wraps W wrap t v v'`: the mathematical value `v` as a value of the type `t` is `v'`.  A value that a signed type cannot
represent has none; an unsigned type keeps it modulo a power of two, if `wrap` allows it. -/
inductive Wraps (wrap : Prop) (t : IntTy) : Int → Int → Prop
  | fits {v} : t.Holds W v → Wraps wrap t v v
  | wraps {v} : wrap → t.unsigned = true → Wraps wrap t v (v % 2 ^ t.width W)

/-- The operators whose operands are converted to a common type. -/
def arithmetic : BinOp → Bool
  | .add | .sub | .mul | .div | .rem | .bitAnd | .bitOr | .bitXor => true
  | _ => false

/-- `TypedValue W wrap e t v`: the integer constant expression `e` has the type `t` and the value `v`.  Right shifts of
negative values are implementation-defined and have none. -/
inductive TypedValue (wrap : Prop) : Expr → IntTy → Int → Prop
  | lit {n : LitInt} {t} : ConstTy W n t → TypedValue wrap (.lit (.int n)) t n.value.toInt
  | plus {e t v} : TypedValue wrap e t v → TypedValue wrap (.un .plus e) t v
  | neg {e t v v'} : TypedValue wrap e t v → Wraps W wrap t (-v) v' → TypedValue wrap (.un .minus e) t v'
  | bin {l r op s t a b a' b' v v'} : arithmetic op = true → TypedValue wrap l s a → TypedValue wrap r t b →
    Wraps W wrap (common W s t) a a' → Wraps W wrap (common W s t) b b' → BinValue op a' b' v →
    Wraps W wrap (common W s t) v v' → TypedValue wrap (.bin l op r) (common W s t) v'
  | shl {l r s t a v'} {k : Nat} : TypedValue wrap l s a → TypedValue wrap r t k → k < s.width W → 0 ≤ a →
    Wraps W wrap s (a * 2 ^ k) v' → TypedValue wrap (.bin l .shl r) s v'
  | shr {l r s t a} {k : Nat} : TypedValue wrap l s a → TypedValue wrap r t k → k < s.width W → 0 ≤ a →
    TypedValue wrap (.bin l .shr r) s (a / 2 ^ k)

end

/-- All constants have signed types. -/
def SignedOnly (W : Widths) : Expr → Prop
  | .lit (.int n) => ∀ t, ConstTy W n t → t.unsigned = false
  | .un _ e => SignedOnly W e
  | .bin l _ r => SignedOnly W l ∧ SignedOnly W r
  | _ => True

end CMacro.Spec
