import Verif.Spec.RustSyntax

/-!
# Specification: what assignments, increments and decrements do, in C and in Rust

The values of expressions and what they change, over any state and any values.  `Machine` says what the operators, the objects and the
functions of the program do; the two languages differ in how expressions are made of them.  The types are not at issue here: an operator
stands for the same operation in both languages (see C64 and C87 for types).

C leaves open in which order most operands are evaluated; here they are evaluated in the order of Rust, which is one of those that C
allows: from left to right, but the right operand of an assignment before the object on the left is found.
-/

namespace CMacro.Spec

/-- What can be assigned to: a variable, a member of an object, or what a pointer points to. -/
inductive Place (V : Type)
  | var (x : IdentExpr)
  | field (p : Place V) (f : Str)
  | deref (v : V)

/-- The parts of a program that are the same in both languages: numbers, operators, objects and functions. -/
structure Machine (σ V : Type) where
  num : Nat → V
  un : UnOp → V → Option V
  bin : BinOp → V → V → Option V
  get : σ → Place V → Option V
  set : σ → Place V → V → Option σ
  call : Str → List V → σ → Option (V × σ)

variable {σ V : Type}

/-- Assign a value, or the result of an operator on the old value and that value. -/
def Machine.store (M : Machine σ V) (op : Option BinOp) (p : Place V) (v : V) (s : σ) : Option σ :=
  match op with
  | none => M.set s p v
  | some op => (M.get s p).bind fun old => (M.bin op old v).bind fun w => M.set s p w

/-! ## C -/

/-- The operators on numbers and pointers. -/
def cArith (op : BinOp) : Bool := [.add, .sub, .mul, .div, .rem, .bitAnd, .bitOr, .bitXor, .shl, .shr].contains op

/-- The assignments, with the operator that is applied. -/
def cAssign : BinOp → Option (Option BinOp)
  | .assign => some none
  | .addAssign => some (some .add)
  | .subAssign => some (some .sub)
  | .mulAssign => some (some .mul)
  | .divAssign => some (some .div)
  | .remAssign => some (some .rem)
  | .bitAndAssign => some (some .bitAnd)
  | .bitOrAssign => some (some .bitOr)
  | .bitXorAssign => some (some .bitXor)
  | .shlAssign => some (some .shl)
  | .shrAssign => some (some .shr)
  | _ => none

/-- Increments and decrements: the operator that is applied, and whether the old value is the result. -/
def cStep : UnOp → Option (BinOp × Bool)
  | .inc => some (.add, false)
  | .dec => some (.sub, false)
  | .postInc => some (.add, true)
  | .postDec => some (.sub, true)
  | _ => none

/-- The member that is meant on the right of a dot. -/
def memberOf : Expr → Option Str
  | .var (.plain f) => some f
  | _ => none

/-- The function that is called. -/
def callee : IdentExpr → Option Str
  | .plain f => some f
  | _ => none

mutual
/-- The value of a C expression and the state after it (C11 6.5).  An assignment yields the value of its left operand after the
assignment (6.5.16p3), `x++` the value before it (6.5.2.4p2). -/
def cEval (M : Machine σ V) : Expr → σ → Option (V × σ)
  | .lit (.int i), s => some (M.num i.value.toInt.toNat, s)
  | .var x, s => (M.get s (.var x)).map fun v => (v, s)
  | .un op e, s =>
    match cStep op with
    | some (o, old) =>
      (cPlace M e s).bind fun (p, s) => (M.get s p).bind fun before => (M.store (some o) p (M.num 1) s).bind fun s =>
        if old then some (before, s) else (M.get s p).map fun v => (v, s)
    | none =>
      (cEval M e s).bind fun (v, s) =>
        if op = .deref then (M.get s (.deref v)).map fun w => (w, s)
        else if op = .minus ∨ op = .comp then (M.un op v).map fun w => (w, s)
        else none
  | .bin l op r, s =>
    match cAssign op with
    | some o =>
      (cEval M r s).bind fun (v, s) => (cPlace M l s).bind fun (p, s) => (M.store o p v s).bind fun s => (M.get s p).map fun v => (v, s)
    | none =>
      if op = .memberAccess then
        (cPlace M l s).bind fun (p, s) => (memberOf r).bind fun f => (M.get s (.field p f)).map fun v => (v, s)
      else if cArith op then
        (cEval M l s).bind fun (a, s) => (cEval M r s).bind fun (b, s) => (M.bin op a b).map fun v => (v, s)
      else none
  | .call f as, s => (cValues M as s).bind fun (vs, s) => (callee f).bind fun f => M.call f vs s
  | _, _ => none
/-- The object that a C expression stands for. -/
def cPlace (M : Machine σ V) : Expr → σ → Option (Place V × σ)
  | .var x, s => some (.var x, s)
  | .un op e, s => if op = .deref then (cEval M e s).map fun (v, s) => (.deref v, s) else none
  | .bin l op r, s =>
    if op = .memberAccess then (cPlace M l s).bind fun (p, s) => (memberOf r).map fun f => (.field p f, s) else none
  | _, _ => none
/-- The values of arguments, from left to right. -/
def cValues (M : Machine σ V) : List Expr → σ → Option (List V × σ)
  | [], s => some ([], s)
  | a :: as, s => (cEval M a s).bind fun (v, s) => (cValues M as s).map fun (vs, s) => (v :: vs, s)
end

/-! ## Rust -/

/-- What names mean in the generated code.  In a macro `$x` is the argument `x`, in a function the name of a parameter is; other names
are those of the program. -/
def scope (asMacro : Bool) (args : List Str) : List RTok → Option IdentExpr
  | [.id x] => if asMacro = false ∧ x ∈ args then some (.arg (args.idxOf x)) else some (.plain x)
  | [.punct p, .id x] => if p = c!"$" ∧ asMacro = true ∧ x ∈ args then some (.arg (args.idxOf x)) else none
  | _ => none

/-- The value of a variable that was introduced with `let`. -/
def local? (ρ : List (Str × V)) : List RTok → Option V
  | [.id x] => ρ.lookup x
  | _ => none

/-- The binary operators of Rust. -/
def rBin (o : Str) : Option BinOp :=
  [(c!"+", BinOp.add), (c!"-", .sub), (c!"*", .mul), (c!"/", .div), (c!"%", .rem), (c!"&", .bitAnd), (c!"|", .bitOr), (c!"^", .bitXor),
    (c!"<<", .shl), (c!">>", .shr)].lookup o

/-- The assignments of Rust. -/
def rAssign (o : Str) : Option (Option BinOp) :=
  [(c!"=", none), (c!"+=", some BinOp.add), (c!"-=", some .sub), (c!"*=", some .mul), (c!"/=", some .div), (c!"%=", some .rem),
    (c!"&=", some .bitAnd), (c!"|=", some .bitOr), (c!"^=", some .bitXor), (c!"<<=", some .shl), (c!">>=", some .shr)].lookup o

/-- The prefix operators of Rust; `!` flips the bits of a number. -/
def rUn (o : Str) : Option UnOp := [(c!"-", UnOp.minus), (c!"!", .comp)].lookup o

/-- The methods in use: `add` and `sub` move a pointer, `into` only changes the type. -/
def rMethod (M : Machine σ V) (m : Str) (v : V) : List V → Option V
  | [] => if m = c!"into" then some v else none
  | [w] => if m = c!"add" then M.bin .add v w else if m = c!"sub" then M.bin .sub v w else none
  | _ => none

/-- The function that a name in Rust stands for. -/
def rCallee (names : List RTok → Option IdentExpr) (ρ : List (Str × V)) : RExpr → Option Str
  | .name x => if (local? ρ x).isSome then none else (names x).bind callee
  | _ => none

/-- A result that is used as a value must not be `()`. -/
def valued (r : Option (Option V × σ)) : Option (V × σ) := r.bind fun (v, s) => v.map fun v => (v, s)

mutual
/-- The value of a Rust expression, `none` for `()`, and the state after it.  An assignment yields `()`; its right operand is evaluated
first.  `ρ` holds the variables introduced with `let`, which cannot be changed. -/
def rEval (M : Machine σ V) (names : List RTok → Option IdentExpr) : RExpr → List (Str × V) → σ → Option (Option V × σ)
  | .name x, ρ, s =>
    match local? ρ x with
    | some v => some (some v, s)
    | none => (names x).bind fun y => (M.get s (.var y)).map fun v => (some v, s)
  | .num n _, _, s => some (some (M.num n), s)
  | .un o e, ρ, s =>
    (valued (rEval M names e ρ s)).bind fun (v, s) =>
      if o = c!"*" then (M.get s (.deref v)).map fun w => (some w, s)
      else (rUn o).bind fun op => (M.un op v).map fun w => (some w, s)
  | .bin o l r, ρ, s =>
    match rAssign o with
    | some op =>
      (valued (rEval M names r ρ s)).bind fun (v, s) => (rPlace M names l ρ s).bind fun (p, s) =>
        (M.store op p v s).map fun s => (none, s)
    | none =>
      (valued (rEval M names l ρ s)).bind fun (a, s) => (valued (rEval M names r ρ s)).bind fun (b, s) =>
        (rBin o).bind fun op => (M.bin op a b).map fun w => (some w, s)
  | .field e f, ρ, s => (rPlace M names e ρ s).bind fun (p, s) => (M.get s (.field p f)).map fun v => (some v, s)
  | .call f as, ρ, s =>
    (rValues M names as ρ s).bind fun (vs, s) => (rCallee names ρ f).bind fun f => (M.call f vs s).map fun (w, s) => (some w, s)
  | .method e m as, ρ, s =>
    (valued (rEval M names e ρ s)).bind fun (v, s) => (rValues M names as ρ s).bind fun (vs, s) =>
      (rMethod M m v vs).map fun w => (some w, s)
  | .seq e b, ρ, s => (rEval M names e ρ s).bind fun (_, s) => rEval M names b ρ s
  | .letIn x e b, ρ, s => (valued (rEval M names e ρ s)).bind fun (v, s) => rEval M names b ((x, v) :: ρ) s
  | _, _, _ => none
/-- The object that a Rust expression stands for. -/
def rPlace (M : Machine σ V) (names : List RTok → Option IdentExpr) : RExpr → List (Str × V) → σ → Option (Place V × σ)
  | .name x, ρ, s => if (local? ρ x).isSome then none else (names x).map fun y => (.var y, s)
  | .field e f, ρ, s => (rPlace M names e ρ s).map fun (p, s) => (.field p f, s)
  | .un o e, ρ, s => if o = c!"*" then (valued (rEval M names e ρ s)).map fun (v, s) => (.deref v, s) else none
  | _, _, _ => none
/-- The values of arguments, from left to right. -/
def rValues (M : Machine σ V) (names : List RTok → Option IdentExpr) : List RExpr → List (Str × V) → σ → Option (List V × σ)
  | [], _, s => some ([], s)
  | a :: as, ρ, s => (valued (rEval M names a ρ s)).bind fun (v, s) => (rValues M names as ρ s).map fun (vs, s) => (v :: vs, s)
end

/-! ## The expressions in question -/

/-- Finding the object changes nothing, and assigning to it does not make the expression stand for another one. -/
def Steady (M : Machine σ V) (l : Expr) : Prop :=
  ∀ s p s', cPlace M l s = some (p, s') → s' = s ∧ ∀ v s2, M.set s p v = some s2 → cPlace M l s2 = some (p, s2)

/-- A name that means the same in C and in the generated code. -/
def usableName (C : Ctx) (args : List Str) (x : Str) : Prop :=
  x ∉ reservedNames ∧ x ∉ rustKeywords ∧ C.resolveEnumVariant x = none ∧ x ≠ c!"prev" ∧ x ∉ args

/-- A number with or without a sign. -/
def isNumber : Expr → Bool
  | .lit _ => true
  | .un .minus (.lit _) => true
  | _ => false

/-- What `-` is applied to: not zero, and not a number that has a sign already. -/
def minusOperand : Expr → Prop
  | .lit (.int i) => 0 < i.value.toInt
  | e => isNumber e = false

/-- What `*` is applied to: not the sum of a number and a pointer, and steps of named pointers only. -/
def pointerOperand : Expr → Prop
  | .bin l _ _ => isNumber l = false
  | .un op e => if (cStep op).isSome then isNamed e = true else op = .deref ∨ op = .minus ∨ op = .comp
  | _ => True

mutual
/-- Expressions made of numbers, variables, members, `*`, `-`, `~`, the arithmetic operators, calls of functions, assignments, increments
and decrements.  What is assigned to is found the same way twice.  The assignments that stand within expressions are
`=`, `+=`, `-=`, `&=`, `|=` and `^=`; no operator has two numbers as operands. -/
def Assigning (C : Ctx) (args : List Str) (M : Machine σ V) : Expr → Prop
  | .lit (.int i) => 0 ≤ i.value.toInt
  | .var (.plain x) => usableName C args x
  | .var (.arg i) => ∃ x, args[i]? = some x ∧ x ≠ c!"..." ∧ x ∉ rustKeywords ∧ x ≠ c!"prev"
  | .un op e => Assigning C args M e ∧
    (if (cStep op).isSome then isTarget e = true ∧ Steady M e
     else if op = .deref then pointerOperand e
     else if op = .minus then minusOperand e
     else op = .comp)
  | .bin l op r => Assigning C args M l ∧
    (if op = .memberAccess then isNumber l = false ∧ ∃ f, r = .var (.plain f) ∧ f ∉ reservedNames ∧ f ∉ rustKeywords ∧ C.resolveEnumVariant f = none
     else Assigning C args M r ∧
      (if op ∈ blockOps.map Prod.fst then isTarget l = true ∧ Steady M l
       else cArith op = true ∧ (isNumber l && isNumber r) = false))
  | .call (.plain f) as => f ∉ rustKeywords ∧ (f = c!"__builtin_offsetof" → as.length ≠ 2) ∧ f ≠ c!"prev" ∧ f ∉ args ∧ AssigningAll C args M as
  | _ => False
/-- The same of all arguments of a call. -/
def AssigningAll (C : Ctx) (args : List Str) (M : Machine σ V) : List Expr → Prop
  | [] => True
  | a :: as => Assigning C args M a ∧ AssigningAll C args M as
end

end CMacro.Spec
