import Verif.Spec.CInt
import Verif.Spec.Rust
import Verif.Spec.RustTyping

/-!
# Specification: what functions over integers compute, in C and in Rust

The values of C expressions over parameters of integer types (C11 6.5), and the values of Rust expressions over parameters
of the corresponding types.  In Rust both operands of an operator have the same type, and a result that its type cannot
represent is an error; `as` keeps the value modulo a power of two.  A condition is an `int` in C and a `bool` in Rust.
-/

namespace CMacro.Spec

/-- An expression over integer literals that is computed at compile time. -/
def constant : Expr → Bool
  | .lit (.int _) => true
  | .un op e => (op = .plus ∨ op = .minus : Bool) && constant e
  | .bin l op r => (arithmetic op || (op = .shl ∨ op = .shr : Bool)) && constant l && constant r
  | _ => false

/-- The names of the types in C. -/
def IntTy.cType : IntTy → BuiltInType
  | .schar => .sChar | .uchar => .uChar | .short => .short | .ushort => .uShort
  | .int => .int | .uint => .uInt | .long => .long | .ulong => .uLong | .llong => .longLong | .ullong => .uLongLong

/-- The names of the types in Rust. -/
def IntTy.rustName : IntTy → Str
  | .schar => c!"c_schar" | .uchar => c!"c_uchar" | .short => c!"c_short" | .ushort => c!"c_ushort"
  | .int => c!"c_int" | .uint => c!"c_uint" | .long => c!"c_long" | .ulong => c!"c_ulong"
  | .llong => c!"c_longlong" | .ullong => c!"c_ulonglong"

/-- A type written in Rust: its name in the module of the foreign types. -/
def tyText (pre : Option RPath) (t : IntTy) : List RTok :=
  (match pre with
    | none => []
    | some p => (if p.leadingColon then [.punct c!"::"] else []) ++ p.segs.flatMap fun s => [.id s, .punct c!"::"])
  ++ [.id t.rustName]

/-- What an expression yields: a number of some type, or the answer to a comparison. -/
inductive Outcome
  | int (t : IntTy) (v : Int)
  | truth (b : Bool)

/-- Whether a condition is met. -/
def Outcome.met : Outcome → Bool
  | .int _ v => decide (v ≠ 0)
  | .truth b => b

/-- The comparisons. -/
def comparison : BinOp → Option (Int → Int → Bool)
  | .lt => some fun a b => decide (a < b)
  | .lte => some fun a b => decide (a ≤ b)
  | .gt => some fun a b => decide (b < a)
  | .gte => some fun a b => decide (b ≤ a)
  | .eq => some fun a b => decide (a = b)
  | .neq => some fun a b => decide (a ≠ b)
  | _ => none

/-- The variables have the same types, but perhaps other values.  In C, an operand that is not evaluated has a type if it has one
for some values of the variables. -/
def SameTypes {α : Type} (ρ ρ' : α → Option (IntTy × Int)) : Prop := ∀ x, (ρ x).map (·.1) = (ρ' x).map (·.1)

section
variable (W : Widths)

/-- The greatest number of a type. -/
def IntTy.greatest (t : IntTy) : Int := if t.unsigned then 2 ^ t.width W - 1 else 2 ^ (t.width W - 1) - 1

/-- One of the limits that the compiler defines. -/
def isLimit : Expr → Bool
  | .var (.plain id) => (limitOf id).isSome
  | _ => false

/-- All bits flipped. -/
def complement (t : IntTy) (v : Int) : Int := if t.unsigned then 2 ^ t.width W - 1 - v else -1 - v

/-- The remainder has a value only if the quotient has one (6.5.5p6; Rust panics too). -/
def quotientHeld (t : IntTy) (op : BinOp) (a b : Int) : Prop :=
  op = .rem → ∃ q, BinValue .div a b q ∧ t.Holds W q

/-- `FnValue W wrap mixed ρ e o`: in C the expression `e` yields `o` when the parameters have the types and values given by
`ρ`.  `wrap` allows unsigned arithmetic to wrap around; `mixed` allows what Rust has no counterpart of: converting an
operand to the type of the other, adding a constant to a limit or multiplying it, using a number as a condition other than that of `? :` or the answer to a comparison as
a number, negating an unsigned number, and shifting, comparing or complementing constants; and the integer promotions. -/
inductive FnValue (wrap mixed : Prop) : (Nat → Option (IntTy × Int)) → Expr → Outcome → Prop
  | const {ρ e t v} : TypedValue W wrap e t v → FnValue wrap mixed ρ e (.int t v)
  | param {ρ i t v} : ρ i = some (t, v) → FnValue wrap mixed ρ (.var (.arg i)) (.int t v)
  | limit {ρ id} {t : IntTy} : limitOf id = some t.cType → mixed ∨ t.promote W = t →
    FnValue wrap mixed ρ (.var (.plain id)) (.int (t.promote W) (t.greatest W))
  | neg {ρ e t v v'} : constant e = false → FnValue wrap mixed ρ e (.int t v) → mixed ∨ t.unsigned = false ∧ t.promote W = t →
    Wraps W wrap (t.promote W) (-v) v' → FnValue wrap mixed ρ (.un .minus e) (.int (t.promote W) v')
  | comp {ρ e t v} : FnValue wrap mixed ρ e (.int t v) → mixed ∨ constant e = false ∧ t.promote W = t →
    FnValue wrap mixed ρ (.un .comp e) (.int (t.promote W) (complement W (t.promote W) v))
  | bin {ρ l r op s t a b a' b' v v'} : arithmetic op = true → constant (.bin l op r) = false →
    FnValue wrap mixed ρ l (.int s a) → FnValue wrap mixed ρ r (.int t b) →
    mixed ∨ (s = t ∧ s.promote W = s) ∨ constant l = true ∧ common W s t = t ∨ constant r = true ∧ common W s t = s →
    Wraps W wrap (common W s t) a a' → Wraps W wrap (common W s t) b b' → BinValue op a' b' v →
    quotientHeld W (common W s t) op a' b' →
    Wraps W wrap (common W s t) v v' →
    (cast : mixed ∨ (op = .mul ∨ op = .add → ¬ (constant l = true ∧ isLimit r = true) ∧ ¬ (constant r = true ∧ isLimit l = true)) := by
      first | exact .inl trivial | exact .inr (by simp [isLimit])) →
    FnValue wrap mixed ρ (.bin l op r) (.int (common W s t) v')
  /- A constant of an unsigned type is added to a limit or multiplied by it, as in `__INT_MAX__ * 2U`. -/
  | widened {ρ id op r} {s t : IntTy} {b b' v v'} : op = .mul ∨ op = .add → limitOf id = some s.cType → s.promote W = s →
    TypedValue W wrap r t b → common W s t = s.toUnsigned → Wraps W wrap s.toUnsigned b b' → BinValue op (s.greatest W) b' v →
    Wraps W wrap s.toUnsigned v v' → FnValue wrap mixed ρ (.bin (.var (.plain id)) op r) (.int s.toUnsigned v')
  | shl {ρ l r s t a v'} {k : Nat} : constant (.bin l .shl r) = false →
    FnValue wrap mixed ρ l (.int s a) → FnValue wrap mixed ρ r (.int t k) →
    mixed ∨ constant l = false ∧ (s = t ∨ constant r = true) ∧ s.promote W = s → k < (s.promote W).width W → 0 ≤ a →
    Wraps W True (s.promote W) (a * 2 ^ k) v' → FnValue wrap mixed ρ (.bin l .shl r) (.int (s.promote W) v')
  | shr {ρ l r s t a} {k : Nat} : constant (.bin l .shr r) = false →
    FnValue wrap mixed ρ l (.int s a) → FnValue wrap mixed ρ r (.int t k) →
    mixed ∨ constant l = false ∧ (s = t ∨ constant r = true) ∧ s.promote W = s → k < (s.promote W).width W → 0 ≤ a →
    FnValue wrap mixed ρ (.bin l .shr r) (.int (s.promote W) (a / 2 ^ k))
  | cast {ρ e s t v v'} : FnValue wrap mixed ρ e (.int s v) → Wraps W True t v v' → FnValue wrap mixed ρ (.cast (.builtIn t.cType) e) (.int t v')
  | cmp {ρ l r op f s t a b a' b'} : comparison op = some f → FnValue wrap mixed ρ l (.int s a) → FnValue wrap mixed ρ r (.int t b) →
    mixed ∨ (constant l && constant r) = false ∧
      (∃ c, (s = c ∨ constant l = true) ∧ (t = c ∨ constant r = true) ∧ c.Holds W a' ∧ c.Holds W b') →
    Wraps W wrap (common W s t) a a' → Wraps W wrap (common W s t) b b' → FnValue wrap mixed ρ (.bin l op r) (.truth (f a' b'))
  | not {ρ e b} : FnValue wrap mixed ρ e (.truth b) → FnValue wrap mixed ρ (.un .not e) (.truth !b)
  | andFalse {ρ ρ' l r b} : FnValue wrap mixed ρ l (.truth false) → SameTypes ρ ρ' → FnValue wrap mixed ρ' r (.truth b) →
    FnValue wrap mixed ρ (.bin l .and r) (.truth false)
  | andTrue {ρ l r b} : FnValue wrap mixed ρ l (.truth true) → FnValue wrap mixed ρ r (.truth b) →
    FnValue wrap mixed ρ (.bin l .and r) (.truth b)
  | orTrue {ρ ρ' l r b} : FnValue wrap mixed ρ l (.truth true) → SameTypes ρ ρ' → FnValue wrap mixed ρ' r (.truth b) →
    FnValue wrap mixed ρ (.bin l .or r) (.truth true)
  | orFalse {ρ l r b} : FnValue wrap mixed ρ l (.truth false) → FnValue wrap mixed ρ r (.truth b) →
    FnValue wrap mixed ρ (.bin l .or r) (.truth b)
  | condTrue {ρ ρ' c x y o s t v w v'} : constant c = false → FnValue wrap mixed ρ c o → o.met = true →
    FnValue wrap mixed ρ x (.int s v) → SameTypes ρ ρ' → FnValue wrap mixed ρ' y (.int t w) →
    mixed ∨ (constant x && constant y) = false ∧
      (s = t ∧ s.promote W = s ∨ constant x = true ∧ common W s t = t ∨ constant y = true ∧ common W s t = s ∧ (common W s t).Holds W w) →
    Wraps W wrap (common W s t) v v' → FnValue wrap mixed ρ (.ternary c x y) (.int (common W s t) v')
  | condFalse {ρ ρ' c x y o s t v w w'} : constant c = false → FnValue wrap mixed ρ c o → o.met = false →
    SameTypes ρ ρ' → FnValue wrap mixed ρ' x (.int s v) → FnValue wrap mixed ρ y (.int t w) →
    mixed ∨ (constant x && constant y) = false ∧
      (s = t ∧ s.promote W = s ∨ constant x = true ∧ common W s t = t ∧ (common W s t).Holds W v ∨ constant y = true ∧ common W s t = s) →
    Wraps W wrap (common W s t) w w' → FnValue wrap mixed ρ (.ternary c x y) (.int (common W s t) w')
  | number {ρ e b} : mixed → FnValue wrap mixed ρ e (.truth b) → FnValue wrap mixed ρ e (.int .int (if b then 1 else 0))
  | nonzero {ρ e t v} : mixed → FnValue wrap mixed ρ e (.int t v) → FnValue wrap mixed ρ e (.truth (decide (v ≠ 0)))

/-- The type of a Rust expression does not depend on where it is used: it has a name or a cast. -/
def typed : RExpr → Bool
  | .name _ => true
  | .max _ => true
  | .un _ e => typed e
  | .bin op l r => if op = c!"<<" ∨ op = c!">>" then typed l else typed l || typed r
  | .cast _ _ => true
  | .ite _ t f => typed t || typed f
  | _ => false

/-- The types of variables with these types and values. -/
def typesIn (pre : Option RPath) (env : List RTok → Option (IntTy × Int)) (x : List RTok) : Option (List RTok) :=
  (env x).map fun p => tyText pre p.1

/-- `RustEval W pre env e o`: the Rust expression `e` yields `o`.  A literal takes the type that its place demands; one that
only says how far to shift is an `i32`.  Operands that are not evaluated must have a type. -/
inductive RustEval (pre : Option RPath) (env : List RTok → Option (IntTy × Int)) : RExpr → Outcome → Prop
  | name {x t v} : env x = some (t, v) → RustEval pre env (.name x) (.int t v)
  | max {t : IntTy} : RustEval pre env (.max (tyText pre t)) (.int t (t.greatest W))
  | num {n : Nat} {t : IntTy} : t.Holds W n → RustEval pre env (.num n) (.int t n)
  | negNum {n : Nat} {t : IntTy} : t.unsigned = false → t.Holds W (-n) → RustEval pre env (.un c!"-" (.num n)) (.int t (-n))
  | neg {e} {t : IntTy} {v} : t.unsigned = false → RustEval pre env e (.int t v) → t.Holds W (-v) →
    RustEval pre env (.un c!"-" e) (.int t (-v))
  | comp {e t v} : RustEval pre env e (.int t v) → RustEval pre env (.un c!"!" e) (.int t (complement W t v))
  | bin {op o l r} {t : IntTy} {a b v} : arithmetic op = true → rustOp op = some o →
    RustEval pre env l (.int t a) → RustEval pre env r (.int t b) → BinValue op a b v → quotientHeld W t op a b → t.Holds W v →
    RustEval pre env (.bin o l r) (.int t v)
  | shl {l r} {s t : IntTy} {a v} {k : Nat} : RustEval pre env l (.int t a) → typed r = true ∨ s = .int →
    RustEval pre env r (.int s k) → k < t.width W → t.Holds W v → 2 ^ t.width W ∣ a * 2 ^ k - v →
    RustEval pre env (.bin c!"<<" l r) (.int t v)
  | shr {l r} {s t : IntTy} {a} {k : Nat} : RustEval pre env l (.int t a) → typed r = true ∨ s = .int →
    RustEval pre env r (.int s k) → k < t.width W → RustEval pre env (.bin c!">>" l r) (.int t (a / 2 ^ k))
  | cast {e s} {t : IntTy} {v v'} : typed e = true → RustEval pre env e (.int s v) → t.Holds W v' → 2 ^ t.width W ∣ v - v' →
    RustEval pre env (.cast e (tyText pre t)) (.int t v')
  | castNum {n : Nat} {t : IntTy} : t.Holds W n → RustEval pre env (.cast (.num n) (tyText pre t)) (.int t n)
  | castComp {n : Nat} {t : IntTy} : t.Holds W n →
    RustEval pre env (.cast (.un c!"!" (.num n)) (tyText pre t)) (.int t (complement W t n))
  | castLit {n : Nat} {s : Str} {t : IntTy} {v'} : s ≠ [] → rustRange s n → t.Holds W v' → 2 ^ t.width W ∣ n - v' →
    RustEval pre env (.cast (.num n s) (tyText pre t)) (.int t v')
  | castNegLit {n : Nat} {s : Str} {t : IntTy} {v'} : 0 < n → s ≠ [] → rustRange s (-n) → t.Holds W v' → 2 ^ t.width W ∣ -n - v' →
    RustEval pre env (.cast (.un c!"-" (.num n s)) (tyText pre t)) (.int t v')
  | cmp {op f o l r} {t : IntTy} {a b} : comparison op = some f → rustOp op = some o → (typed l || typed r) = true →
    RustEval pre env l (.int t a) → RustEval pre env r (.int t b) → RustEval pre env (.bin o l r) (.truth (f a b))
  | not {e b} : RustEval pre env e (.truth b) → RustEval pre env (.un c!"!" e) (.truth !b)
  | andFalse {l r} : RustEval pre env l (.truth false) → HasType (fun _ => False) pre (typesIn pre env) r boolText →
    RustEval pre env (.bin c!"&&" l r) (.truth false)
  | andTrue {l r b} : RustEval pre env l (.truth true) → RustEval pre env r (.truth b) →
    RustEval pre env (.bin c!"&&" l r) (.truth b)
  | orTrue {l r} : RustEval pre env l (.truth true) → HasType (fun _ => False) pre (typesIn pre env) r boolText →
    RustEval pre env (.bin c!"||" l r) (.truth true)
  | orFalse {l r b} : RustEval pre env l (.truth false) → RustEval pre env r (.truth b) →
    RustEval pre env (.bin c!"||" l r) (.truth b)
  | iteTrue {c x y t v} : RustEval pre env c (.truth true) → RustEval pre env x (.int t v) →
    HasType (fun _ => False) pre (typesIn pre env) y (tyText pre t) → RustEval pre env (.ite c x y) (.int t v)
  | iteFalse {c x y t w} : RustEval pre env c (.truth false) → HasType (fun _ => False) pre (typesIn pre env) x (tyText pre t) →
    RustEval pre env y (.int t w) → RustEval pre env (.ite c x y) (.int t w)

end

/-- The types and values of the parameters of a macro, by position. -/
def byIndex (ps : List (Str × IntTy × Int)) (i : Nat) : Option (IntTy × Int) := ps[i]?.map (·.2)

/-- The types and values of the parameters of a function, by name. -/
def byName (ps : List (Str × IntTy × Int)) : List RTok → Option (IntTy × Int)
  | [.id x] => ps.lookup x
  | _ => none

/-- The parameters of a Rust function with these names and types. -/
def paramText (pre : Option RPath) (ps : List (Str × IntTy × Int)) : List (List RTok) :=
  ps.map fun p => [.id p.1, .punct c!":"] ++ tyText pre p.2.1

end CMacro.Spec
