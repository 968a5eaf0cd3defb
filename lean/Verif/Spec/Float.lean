import Verif.Spec.Lex
import Verif.Spec.Arith
import Verif.Model.Rust

/-!
# Floating constants of C and arithmetic on them
-/

namespace CMacro.Spec

/-- A sequence of decimal digits. -/
def Decimal (s : Str) : Prop := ∀ c ∈ s, 48 ≤ c.toNat ∧ c.toNat ≤ 57

/-- An exponent: `e` or `E`, a sign or none, and digits. -/
inductive ExponentPart : Str → Prop
  | mk {c : Char} {sign ds : Str} : c = 'e' ∨ c = 'E' → sign ∈ [[], c!"+", c!"-"] → Decimal ds → ds ≠ [] →
      ExponentPart (c :: (sign ++ ds))

/-- The decimal floating constants of C, without a suffix. -/
inductive DecFloat : Str → Prop
  | fraction {a b x : Str} : Decimal a → Decimal b → a ≠ [] ∨ b ≠ [] → x = [] ∨ ExponentPart x → DecFloat (a ++ '.' :: (b ++ x))
  | whole {a x : Str} : Decimal a → a ≠ [] → ExponentPart x → DecFloat (a ++ x)

/-- The types of floating constants. -/
inductive FloatTy
  | float | double | longDouble
  deriving DecidableEq

/-- The suffixes of floating constants and their types. -/
def floatSuffixes : List (Str × FloatTy) :=
  [([], .double), (c!"f", .float), (c!"F", .float), (c!"l", .longDouble), (c!"L", .longDouble)]

/-- The literal of a type. -/
def FloatTy.lit : FloatTy → FVal → LitFloat
  | .float => .float
  | .double => .double
  | .longDouble => .longDouble

/-- Powers of a number. -/
def power (b : Rat) (k : Int) : Rat := if 0 ≤ k then b ^ k.toNat else 1 / b ^ (-k).toNat

/-- The number written with decimal digits. -/
def digitsValue (s : Str) : Nat := positional 10 (s.map fun c => c.toNat - 48)

/-- The exponent that follows `e`. -/
def exponentValue : Str → Int
  | '-' :: s => - (digitsValue s : Int)
  | '+' :: s => digitsValue s
  | s => digitsValue s

/-- The number that a decimal floating constant denotes. -/
def decimal (s : Str) : Rat :=
  let m := s.takeWhile fun c => c != 'e' && c != 'E'
  let x := (s.drop m.length).drop 1
  let a := m.takeWhile (· != '.')
  let b := (m.drop a.length).drop 1
  (digitsValue (a ++ b) : Rat) * power 10 (exponentValue x - b.length)

/-- The four operations on floating numbers. -/
inductive FloatOp
  | add | sub | mul | div
  deriving DecidableEq

/-- Two floating formats and the operations on them. -/
structure FloatArith where
  /-- Numbers of the type `float`. -/
  F32 : Type
  /-- Numbers of the type `double`. -/
  F64 : Type
  /-- The `float` nearest to a number. -/
  near32 : Rat → F32
  /-- The `double` nearest to a number. -/
  near64 : Rat → F64
  /-- Conversion of `float` to `double`. -/
  widen : F32 → F64
  op32 : FloatOp → F32 → F32 → F32
  op64 : FloatOp → F64 → F64 → F64
  neg32 : F32 → F32
  neg64 : F64 → F64

/-- Integers of up to 24 bits are numbers of both formats. -/
def FloatArith.Exact (A : FloatArith) : Prop := ∀ n : Int, n.natAbs ≤ 2 ^ 24 → A.widen (A.near32 n) = A.near64 n

/-- The integer nearest to a number, the even one of two. -/
def nearest (q : Rat) : Int :=
  let f := q.floor
  if q - f < 1 / 2 then f else if 1 / 2 < q - f then f + 1 else if f % 2 = 0 then f else f + 1

/-- The largest `k` with `2 ^ k ≤ |q|`. -/
def binade (q : Rat) : Int :=
  let k : Int := (Nat.log2 q.num.natAbs : Int) - (Nat.log2 q.den : Int)
  if power 2 k ≤ q.abs then k else k - 1

/-- Rounding to `p` bits, without bounds for the exponent. -/
def roundTo (p : Nat) (q : Rat) : Rat :=
  if q = 0 then 0 else
    let s := power 2 (binade q - (p - 1))
    (nearest (q / s) : Rat) * s

/-- An operation on numbers. -/
def FloatOp.on (o : FloatOp) (a b : Rat) : Rat :=
  match o with
  | .add => a + b
  | .sub => a - b
  | .mul => a * b
  | .div => a / b

/-- Binary floating numbers of 24 and 53 bits, rounded to the nearest, as in IEEE 754 but without bounds for the exponent, without
infinities, and without a negative zero. -/
def ieee : FloatArith where
  F32 := Rat
  F64 := Rat
  near32 := roundTo 24
  near64 := roundTo 53
  widen := id
  op32 o a b := roundTo 24 (o.on a b)
  op64 o a b := roundTo 53 (o.on a b)
  neg32 a := -a
  neg64 a := -a

/-- Numbers of the types `int`, `float` and `double`; `long double` is the same as `double` here, as it is on some platforms. -/
inductive Number (A : FloatArith)
  | int (n : Int)
  | float (x : A.F32)
  | double (x : A.F64)

/-- Conversion to `float`. -/
inductive ToFloat (A : FloatArith) : Number A → A.F32 → Prop
  | int {n : Int} : ToFloat A (.int n) (A.near32 n)
  | float {x} : ToFloat A (.float x) x

/-- Conversion to `double`. -/
inductive ToDouble (A : FloatArith) : Number A → A.F64 → Prop
  | int {n : Int} : ToDouble A (.int n) (A.near64 n)
  | float {x} : ToDouble A (.float x) (A.widen x)
  | double {x} : ToDouble A (.double x) x

/-- Whether a number is a `double`. -/
def Number.isDouble {A : FloatArith} : Number A → Bool
  | .double _ => true
  | _ => false

/-- Whether a number is an `int`. -/
def Number.isInt {A : FloatArith} : Number A → Bool
  | .int _ => true
  | _ => false

/-- The operators. -/
def floatOps : List (BinOp × FloatOp) := [(.add, .add), (.sub, .sub), (.mul, .mul), (.div, .div)]

/-- Arithmetic of C on constants: operands are converted to the type of the other one if that is wider. The integers that are
operands satisfy `P`, with the expression and the value. -/
inductive CFloat (A : FloatArith) (P : Expr → Int → Prop) : Expr → Number A → Prop
  | int {e v} : Value e v → P e v → CFloat A P e (.int v)
  | float {t} : DecFloat t → CFloat A P (.lit (.float (.float (.parse t)))) (.float (A.near32 (decimal t)))
  | double {t} : DecFloat t → CFloat A P (.lit (.float (.double (.parse t)))) (.double (A.near64 (decimal t)))
  | longDouble {t} : DecFloat t → CFloat A P (.lit (.float (.longDouble (.parse t)))) (.double (A.near64 (decimal t)))
  | plusF {e x} : CFloat A P e (.float x) → CFloat A P (.un .plus e) (.float x)
  | plusD {e x} : CFloat A P e (.double x) → CFloat A P (.un .plus e) (.double x)
  | negF {e x} : CFloat A P e (.float x) → CFloat A P (.un .minus e) (.float (A.neg32 x))
  | negD {e x} : CFloat A P e (.double x) → CFloat A P (.un .minus e) (.double (A.neg64 x))
  | binF {l r a b x y op o} : CFloat A P l a → CFloat A P r b → (op, o) ∈ floatOps → ¬ (a.isInt = true ∧ b.isInt = true) →
      ToFloat A a x → ToFloat A b y → CFloat A P (.bin l op r) (.float (A.op32 o x y))
  | binD {l r a b x y op o} : CFloat A P l a → CFloat A P r b → (op, o) ∈ floatOps → a.isDouble = true ∨ b.isDouble = true →
      ToDouble A a x → ToDouble A b y → CFloat A P (.bin l op r) (.double (A.op64 o x y))

mutual
/-- The `f32` that a value computed by the code generator is. -/
inductive Is32 (A : FloatArith) : FVal → A.F32 → Prop
  | parse {t} : Is32 A (.parse t) (A.near32 (decimal t))
  | ofInt {i : BitVec 128} : Is32 A (.ofInt i) (A.near32 i.toInt)
  | add {a b x y} : Is32 A a x → Is32 A b y → Is32 A (.add a b) (A.op32 .add x y)
  | sub {a b x y} : Is32 A a x → Is32 A b y → Is32 A (.sub a b) (A.op32 .sub x y)
  | mul {a b x y} : Is32 A a x → Is32 A b y → Is32 A (.mul a b) (A.op32 .mul x y)
  | div {a b x y} : Is32 A a x → Is32 A b y → Is32 A (.div a b) (A.op32 .div x y)
  | neg {a x} : Is32 A a x → Is32 A (.neg a) (A.neg32 x)
/-- The `f64` that it is. -/
inductive Is64 (A : FloatArith) : FVal → A.F64 → Prop
  | parse {t} : Is64 A (.parse t) (A.near64 (decimal t))
  | ofInt {i : BitVec 128} : Is64 A (.ofInt i) (A.near64 i.toInt)
  | widen {a x} : Is32 A a x → Is64 A (.widen a) (A.widen x)
  | add {a b x y} : Is64 A a x → Is64 A b y → Is64 A (.add a b) (A.op64 .add x y)
  | sub {a b x y} : Is64 A a x → Is64 A b y → Is64 A (.sub a b) (A.op64 .sub x y)
  | mul {a b x y} : Is64 A a x → Is64 A b y → Is64 A (.mul a b) (A.op64 .mul x y)
  | div {a b x y} : Is64 A a x → Is64 A b y → Is64 A (.div a b) (A.op64 .div x y)
  | neg {a x} : Is64 A a x → Is64 A (.neg a) (A.neg64 x)
end

/-- The number that a floating literal in generated code is, and the type of it. -/
inductive RustFloat (A : FloatArith) : LitFloat → List RTok → Number A → Prop
  | float {v x} : Is32 A v x → RustFloat A (.float v) (q!"f32") (.float x)
  | double {v x} : Is64 A v x → RustFloat A (.double v) (q!"f64") (.double x)
  | longDouble {v x} : Is64 A v x → RustFloat A (.longDouble v) (q!"f64") (.double x)

end CMacro.Spec
