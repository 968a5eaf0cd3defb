import Verif.Model.Print

/-!
# Specification: how Rust groups an expression

A small parser of Rust expressions, written after the table of operator precedences in the Rust
reference, and the tree that a C expression should have in Rust.  The parser knows names, `$x`,
literals, constants `T::MAX`, parentheses, field access, calls, method calls, the prefix operators, `as`, the
binary and assignment operators, `if` with `else`, and blocks of expressions and `let` with an expression at the end.
-/

namespace CMacro.Spec

/-- A Rust expression. -/
inductive RExpr
  | name (ts : List RTok)
  | num (v : Nat) (suffix : Str := [])
  | float (f : LitFloat)
  | char (c : Char)
  | max (ty : List RTok)
  | un (op : Str) (e : RExpr)
  | bin (op : Str) (l r : RExpr)
  | cast (e : RExpr) (ty : List RTok)
  | field (e : RExpr) (name : Str)
  | call (f : RExpr) (args : List RExpr)
  | method (e : RExpr) (name : Str) (args : List RExpr)
  | ite (c t f : RExpr)
  | seq (e body : RExpr)
  | letIn (name : Str) (e body : RExpr)

/-- The binary operators of Rust, from the tightest row to the loosest. -/
def rustRows : List (List Str) :=
  [[c!"*", c!"/", c!"%"], [c!"+", c!"-"], [c!"<<", c!">>"], [c!"&"], [c!"^"], [c!"|"],
   [c!"==", c!"!=", c!"<", c!">", c!"<=", c!">="], [c!"&&"], [c!"||"],
   [c!"=", c!"+=", c!"-=", c!"*=", c!"/=", c!"%=", c!"&=", c!"|=", c!"^=", c!"<<=", c!">>="]]

/-- The row of an operator: `as` is on level 3, the first row on level 5.  The comparisons are on
level 11, the assignments on level 14. -/
def opLevel (op : Str) : Option Nat := (rustRows.findIdx? (·.contains op)).map (· + 5)

/-- What the right operand of an operator may contain: the assignments group to the right, all
others to the left. -/
def rightLevel (j : Nat) : Nat := if j = 14 then 14 else j - 1

/-- The next token is a comparison. -/
def startsCmp : List RTok → Bool
  | .punct p :: _ => opLevel p == some 11
  | _ => false

/-- The strict keywords of Rust; no expression is named by one. -/
def rustKeywords : List Str :=
  [c!"as", c!"async", c!"await", c!"break", c!"const", c!"continue", c!"crate", c!"dyn", c!"else", c!"enum",
   c!"extern", c!"false", c!"fn", c!"for", c!"if", c!"impl", c!"in", c!"let", c!"loop", c!"match", c!"mod",
   c!"move", c!"mut", c!"pub", c!"ref", c!"return", c!"self", c!"Self", c!"static", c!"struct", c!"super",
   c!"trait", c!"true", c!"type", c!"unsafe", c!"use", c!"where", c!"while"]

/-- Those that may begin a path. -/
def pathRoots : List Str := [c!"crate", c!"self", c!"super", c!"Self"]

/-- What may follow a path in a type: `<` and `<<` would begin generic arguments. -/
def endsType : List RTok → Bool
  | .punct p :: _ => !(p ∈ [c!"<", c!"<<", c!"(", c!"::", c!"!"] : Bool)
  | _ => true

/-- The rest of a path after `::`. -/
def rPath : List RTok → Option (List RTok × List RTok)
  | .id x :: .punct p :: ts =>
    if p = c!"::" then (rPath ts).map fun (path, rest) => (.id x :: .punct p :: path, rest)
    else if endsType (.punct p :: ts) then some ([.id x], .punct p :: ts) else none
  | .id x :: ts => some ([.id x], ts)
  | _ => none

/-- A type after `as`: pointers to a path. -/
def rTy : List RTok → Option (List RTok × List RTok)
  | .punct p :: .id m :: ts =>
    if p = c!"*" ∧ (m = c!"const" ∨ m = c!"mut") then
      (rTy ts).map fun (ty, rest) => (.punct p :: .id m :: ty, rest)
    else if p = c!"::" then (rPath (.id m :: ts)).map fun (path, rest) => (.punct p :: path, rest)
    else none
  | ts => rPath ts

/-- A further name of a path, behind `::`; `MAX` at the end of it is a constant of the type before it. -/
def pathStep : RExpr → List RTok → Option (RExpr × List RTok)
  | .name x, .id y :: rest =>
    some (if y = c!"MAX" ∧ rest.head? ≠ some (.punct c!"::") then .max x else .name (x ++ [.punct c!"::", .id y]), rest)
  | _, _ => none

mutual
/-- An expression whose binary operators are on level `k` or tighter.  The first argument bounds the
depth of calls. -/
def rExpr : Nat → Nat → List RTok → Option (RExpr × List RTok)
  | 0, _, _ => none
  | n + 1, k, ts => match rPre n ts with
    | none => none
    | some (l, rest) => rClimb n k l rest
/-- A prefix operator with its operand, or an operand with what is attached behind it. -/
def rPre : Nat → List RTok → Option (RExpr × List RTok)
  | 0, _ => none
  | n + 1, .punct p :: ts =>
    if p = c!"-" ∨ p = c!"!" ∨ p = c!"*" then
      match rPre n ts with
      | none => none
      | some (e, rest) => some (.un p e, rest)
    else if p = c!"(" then
      match rExpr n 14 ts with
      | some (e, .punct q :: rest) => if q = c!")" then rPost n e rest else none
      | _ => none
    else if p = c!"$" then
      match ts with
      | .id x :: rest => rPost n (.name [.punct p, .id x]) rest
      | _ => none
    else if p = c!"::" then
      match ts with
      | .id x :: rest => rPost n (.name [.punct p, .id x]) rest
      | _ => none
    else if p = c!"{" then
      match rBlock n ts with
      | none => none
      | some (e, rest) => rPost n e rest
    else none
  | n + 1, .int v s :: ts =>
    if v < 0 then
      match rPost n (.num v.natAbs s) ts with
      | none => none
      | some (e, rest) => some (.un c!"-" e, rest)
    else rPost n (.num v.natAbs s) ts
  | n + 1, .float f :: ts => rPost n (.float f) ts
  | n + 1, .char c :: ts => rPost n (.char c) ts
  | n + 1, .id x :: ts =>
    if x = c!"if" then
      match rIf n ts with
      | none => none
      | some (e, rest) => rPost n e rest
    else if x ∈ rustKeywords ∧ ¬ (x ∈ pathRoots ∧ ts.head? = some (.punct c!"::")) then none else rPost n (.name [.id x]) ts
  | _ + 1, _ => none
/-- A condition and two blocks behind `if`. -/
def rIf : Nat → List RTok → Option (RExpr × List RTok)
  | 0, _ => none
  | n + 1, ts =>
    match rExpr n 14 ts with
    | some (c, .punct p :: ts) =>
      if p = c!"{" then
        match rBlock n ts with
        | some (t, .id x :: .punct q :: ts) =>
          if x = c!"else" ∧ q = c!"{" then
            match rBlock n ts with
            | some (f, rest) => some (.ite c t f, rest)
            | none => none
          else none
        | _ => none
      else none
    | _ => none
/-- What stands in a block, up to and including the closing brace: expressions and `let` with semicolons, and an expression.  An
`if` or a block at the beginning of one of them ends with its last brace: nothing can be applied to it. -/
def rBlock : Nat → List RTok → Option (RExpr × List RTok)
  | 0, _ => none
  | n + 1, ts =>
    if ts.head? = some (.id c!"let") then
      match ts.tail with
      | .id x :: .punct q :: ts =>
        if q = c!"=" ∧ x ∉ rustKeywords then
          match rExpr n 14 ts with
          | some (e, .punct r :: ts) =>
            if r = c!";" then
              match rBlock n ts with
              | none => none
              | some (b, rest) => some (.letIn x e b, rest)
            else none
          | _ => none
        else none
      | _ => none
    else
      match if ts.head? = some (.id c!"if") then rIf n ts.tail else if ts.head? = some (.punct c!"{") then rBlock n ts.tail
        else rExpr n 14 ts with
      | some (e, .punct p :: rest) =>
        if p = c!"}" then some (e, rest)
        else if p = c!";" then
          match rBlock n rest with
          | none => none
          | some (b, rest) => some (.seq e b, rest)
        else none
      | _ => none
/-- Field accesses, calls and method calls behind an operand; behind a name, the rest of a path. -/
def rPost : Nat → RExpr → List RTok → Option (RExpr × List RTok)
  | 0, _, _ => none
  | n + 1, e, .punct p :: ts =>
    if p = c!"." then
      match ts with
      | .id f :: .punct q :: ts =>
        if f ∈ rustKeywords then none
        else if q = c!"(" then
          match rArgs n ts with
          | none => none
          | some (as, rest) => rPost n (.method e f as) rest
        else rPost n (.field e f) (.punct q :: ts)
      | .id f :: ts => if f ∈ rustKeywords then none else rPost n (.field e f) ts
      | _ => none
    else if p = c!"(" then
      match rArgs n ts with
      | none => none
      | some (as, rest) => rPost n (.call e as) rest
    else if p = c!"::" then
      match pathStep e ts with
      | none => none
      | some (e, rest) => rPost n e rest
    else some (e, .punct p :: ts)
  | _ + 1, e, ts => some (e, ts)
/-- The arguments of a call, up to and including the closing parenthesis. -/
def rArgs : Nat → List RTok → Option (List RExpr × List RTok)
  | 0, _ => none
  | n + 1, ts =>
    if ts.head? = some (.punct c!")") then some ([], ts.tail)
    else match rExpr n 14 ts with
      | some (e, .punct q :: rest) =>
        if q = c!")" then some ([e], rest)
        else if q = c!"," then
          match rArgs n rest with
          | none => none
          | some (es, rest) => some (e :: es, rest)
        else none
      | _ => none
/-- Binary operators on level `k` or tighter behind a left operand; comparisons do not chain. -/
def rClimb : Nat → Nat → RExpr → List RTok → Option (RExpr × List RTok)
  | 0, _, _, _ => none
  | n + 1, k, l, .id x :: ts =>
    if x = c!"as" ∧ 3 ≤ k then
      match rTy ts with
      | none => none
      | some (ty, rest) => rClimb n k (.cast l ty) rest
    else some (l, .id x :: ts)
  | n + 1, k, l, .punct p :: ts =>
    match opLevel p with
    | none => some (l, .punct p :: ts)
    | some j =>
      if k < j then some (l, .punct p :: ts)
      else match rExpr n (rightLevel j) ts with
        | none => none
        | some (r, rest) =>
          if j = 11 ∧ startsCmp rest then none
          else rClimb n k (.bin p l r) rest
  | _ + 1, _, l, ts => some (l, ts)
end

/-- The tokens are one Rust expression. -/
def rustParse (ts : List RTok) : Option RExpr :=
  match rExpr (2 * ts.length + 1) 14 ts with
  | some (e, []) => some e
  | _ => none

/-- The tokens are one Rust expression when they stand between braces. -/
def rustBlock (ts : List RTok) : Option RExpr :=
  match rBlock (2 * ts.length + 4) (ts ++ [.punct c!"}"]) with
  | some (e, []) => some e
  | _ => none

/-! ## The tree of a C expression -/

/-- How Rust writes a binary operator of C. -/
def rustOp : BinOp → Option Str
  | .mul => some c!"*" | .div => some c!"/" | .rem => some c!"%" | .add => some c!"+" | .sub => some c!"-"
  | .shl => some c!"<<" | .shr => some c!">>" | .bitAnd => some c!"&" | .bitXor => some c!"^" | .bitOr => some c!"|"
  | .eq => some c!"==" | .neq => some c!"!=" | .lt => some c!"<" | .gt => some c!">" | .lte => some c!"<=" | .gte => some c!">="
  | .and => some c!"&&" | .or => some c!"||"
  | .mulAssign => some c!"*=" | .divAssign => some c!"/=" | .remAssign => some c!"%="
  | .shlAssign => some c!"<<=" | .shrAssign => some c!">>="
  | _ => none

/-- How Rust writes a prefix operator of C; it has no unary plus. -/
def rustPrefix : UnOp → Option Str
  | .minus => some c!"-"
  | .not | .comp => some c!"!"
  | _ => none

/-- An integer: a negative number is the negation of a literal. -/
def rInt (v : Int) (s : Str := []) : RExpr := if v < 0 then .un c!"-" (.num v.natAbs s) else .num v.natAbs s

/-- The suffix of a literal under a cast: a type that holds the number, so that the literal does not take the type it is cast
to. -/
def castSuffix (v : Int) : Str :=
  if v < 0 then
    if -2 ^ 7 ≤ v then c!"i8" else if -2 ^ 15 ≤ v then c!"i16" else if -2 ^ 31 ≤ v then c!"i32" else if -2 ^ 63 ≤ v then c!"i64"
    else c!"i128"
  else
    if v < 2 ^ 8 then c!"u8" else if v < 2 ^ 16 then c!"u16" else if v < 2 ^ 32 then c!"u32" else if v < 2 ^ 64 then c!"u64"
    else c!"i128"

/-- Names that stand for something else. -/
def reservedNames : List Str :=
  [c!"__LINE__", c!"__FILE__", c!"__SCHAR_MAX__", c!"__SHRT_MAX__", c!"__INT_MAX__", c!"__LONG_MAX__", c!"__LONG_LONG_MAX__"]

/-- Zero pointers and `void` are not written with `as`. -/
def PlainCast (ty : Ty) (e : Expr) : Prop :=
  ty ≠ .builtIn .void ∧ ((∀ i, e = .lit (.int i) → i.value ≠ 0) ∨ (∀ t, ty ≠ .ptr t) ∧ ∀ t q, ty ≠ .qualified (.ptr t) q)

/-- Dereferencing such an operand is written with `*`: it is no sum or difference, no increment
or decrement and no cast. -/
def PlainPointer : Expr → Prop
  | .bin _ op _ => op ≠ .add ∧ op ≠ .sub
  | .un op _ => op = .deref ∨ op = .minus ∨ op = .not ∨ op = .comp
  | .cast _ _ => False
  | _ => True

/-- A type is written as a path, or as a pointer to such a type. -/
inductive TypeText : List RTok → Prop
  | name {x} : TypeText [.id x]
  | seg {x x' ts} : TypeText (.id x :: ts) → TypeText (.id x' :: .punct c!"::" :: .id x :: ts)
  | root {x ts} : TypeText (.id x :: ts) → TypeText (.punct c!"::" :: .id x :: ts)
  | ptr {m ts} : m = c!"const" ∨ m = c!"mut" → TypeText ts → TypeText (.punct c!"*" :: .id m :: ts)

/-- The limits that the compiler defines, with their types: the constant `MAX` of the type. -/
def limitOf (id : Str) : Option BuiltInType :=
  [(c!"__SCHAR_MAX__", BuiltInType.sChar), (c!"__SHRT_MAX__", .short), (c!"__INT_MAX__", .int), (c!"__LONG_MAX__", .long),
    (c!"__LONG_LONG_MAX__", .longLong)].lookup id

/-- The path of the module of the foreign types is not empty and can begin an expression. -/
def Rooted (pre : Option RPath) : Prop :=
  ∀ p, pre = some p → ∃ x xs, p.segs = x :: xs ∧ (p.leadingColon = false → x ∉ rustKeywords ∨ x ∈ pathRoots)

/-- The assignment operators that are written as blocks, which assign and then name the target: an assignment of Rust has no
value. -/
def blockOps : List (BinOp × Str) :=
  [(.assign, c!"="), (.addAssign, c!"+="), (.subAssign, c!"-="), (.bitAndAssign, c!"&="), (.bitXorAssign, c!"^="), (.bitOrAssign, c!"|=")]

/-- Increments and decrements, with the assignment operator for them. -/
def stepOps : List (UnOp × Str) := [(.inc, c!"+="), (.dec, c!"-=")]

/-- Those that yield the old value. -/
def postOps : List (UnOp × Str) := [(.postInc, c!"+="), (.postDec, c!"-=")]

/-- The steps of a pointer that is dereferenced are calls of methods. -/
def stepNames : List (UnOp × Str) := [(.inc, c!"add"), (.dec, c!"sub")]

/-- The same for steps that yield the old pointer. -/
def postNames : List (UnOp × Str) := [(.postInc, c!"add"), (.postDec, c!"sub")]

/-- Expressions that are written as a block or as an `if`: conditional expressions, assignments, increments and decrements. -/
def isBlockLike : Expr → Bool
  | .ternary _ _ _ => true
  | .un op _ => [.inc, .dec, .postInc, .postDec].contains op
  | .bin _ op _ => (blockOps.map Prod.fst).contains op
  | _ => false

/-- The operand on the left edge is such an expression. -/
def beginsBlock : Expr → Bool
  | .ternary _ _ _ => true
  | .un op _ => [.inc, .dec, .postInc, .postDec].contains op
  | .bin l op _ => (blockOps.map Prod.fst).contains op || beginsBlock l
  | .cast _ e => beginsBlock e
  | _ => false

/-- What an assignment can change; not the member of an operand that begins with a conditional expression or another that is
written as a block. -/
def isTarget : Expr → Bool
  | .var _ => true
  | .un .deref _ => true
  | .bin l .memberAccess _ => !beginsBlock l
  | _ => false

/-- A variable, or a member. -/
def isNamed : Expr → Bool
  | .var _ => true
  | .bin l .memberAccess _ => !beginsBlock l
  | _ => false

mutual
/-- `RustTree P e t`: `t` groups its operands as the C expression `e` does.  `*(p + i)` becomes
`*p.add(i)`, arguments of functions are converted with `into`.  An assignment is a block that assigns and then names the target, `x++` is
a block that remembers the old value. -/
inductive RustTree (P : PCtx) : Expr → RExpr → Prop
  | plain {id} : id ∉ reservedNames → id ∉ rustKeywords → P.C.resolveEnumVariant id = none →
      RustTree P (.var (.plain id)) (.name [.id id])
  | limit {id b} : limitOf id = some b → Rooted P.C.ffiPrefix → RustTree P (.var (.plain id)) (.max ((Ty.builtIn b).toks P))
  | metavar {i x} : P.L.argNames[i]? = some x → x ≠ c!"..." → P.asMacro = true →
      RustTree P (.var (.arg i)) (.name [.punct c!"$", .id x])
  | param {i x} : P.L.argNames[i]? = some x → x ≠ c!"..." → P.asMacro = false → x ∉ rustKeywords →
      RustTree P (.var (.arg i)) (.name [.id x])
  | int {i} : RustTree P (.lit (.int i)) (rInt i.value.toInt)
  | float {f} : RustTree P (.lit (.float f)) (.float f)
  | un {op o e t} : rustPrefix op = some o → RustTree P e t → RustTree P (.un op e) (.un o t)
  | deref {e t} : PlainPointer e → RustTree P e t → RustTree P (.un .deref e) (.un c!"*" t)
  | derefAdd {p i t u} : RustTree P p t → RustTree P i u →
      RustTree P (.un .deref (.bin p .add i)) (.un c!"*" (.method t c!"add" [u]))
  | derefSub {p i t u} : RustTree P p t → RustTree P i u →
      RustTree P (.un .deref (.bin p .sub i)) (.un c!"*" (.method t c!"sub" [u]))
  | bin {l op o r t u} : rustOp op = some o → RustTree P l t → RustTree P r u →
      RustTree P (.bin l op r) (.bin o t u)
  | field {e t f} : RustTree P e t → f ∉ reservedNames → f ∉ rustKeywords → P.C.resolveEnumVariant f = none →
      RustTree P (.bin e .memberAccess (.var (.plain f))) (.field t f)
  | cast {ty e t} : PlainCast ty e → TypeText (ty.toks P) → (∀ i, e ≠ .lit (.int i)) → RustTree P e t →
      RustTree P (.cast ty e) (.cast t (ty.toks P))
  | castInt {ty i} : PlainCast ty (.lit (.int i)) → TypeText (ty.toks P) →
      RustTree P (.cast ty (.lit (.int i))) (.cast (rInt i.value.toInt (castSuffix i.value.toInt)) (ty.toks P))
  | call {f as ts} : f ∉ rustKeywords → (f = c!"__builtin_offsetof" → as.length ≠ 2) → ArgTrees P as ts →
      RustTree P (.call (.plain f) as) (.call (.name [.id f]) ts)
  | assign {l op o r t u} : (op, o) ∈ blockOps → isTarget l = true → RustTree P l t → RustTree P r u →
      RustTree P (.bin l op r) (.seq (.bin o t u) t)
  | step {e op o t} : (op, o) ∈ stepOps → isTarget e = true → RustTree P e t →
      RustTree P (.un op e) (.seq (.bin o t (.num 1)) t)
  | postStep {e op o t} : (op, o) ∈ postOps → isTarget e = true → RustTree P e t →
      RustTree P (.un op e) (.letIn c!"prev" t (.seq (.bin o t (.num 1)) (.name [.id c!"prev"])))
  | derefStep {p op m t} : (op, m) ∈ stepNames → isNamed p = true → RustTree P p t →
      RustTree P (.un .deref (.un op p)) (.un c!"*" (.seq (.bin c!"=" t (.method t m [.num 1])) t))
  | derefPostStep {p op m t} : (op, m) ∈ postNames → isNamed p = true → RustTree P p t →
      RustTree P (.un .deref (.un op p))
        (.un c!"*" (.letIn c!"prev" t (.seq (.bin c!"=" t (.method t m [.num 1])) (.name [.id c!"prev"]))))
  | ternary {c t f a b d} : RustTree P c a → RustTree P t b → RustTree P f d → RustTree P (.ternary c t f) (.ite a b d)
/-- The trees of the arguments of a call; whether `into` is called on one is not at issue here. -/
inductive ArgTrees (P : PCtx) : List Expr → List RExpr → Prop
  | nil : ArgTrees P [] []
  | into {a t as ts} : RustTree P a t → noInto P a = false → ArgTrees P as ts →
      ArgTrees P (a :: as) (.method t c!"into" [] :: ts)
  | plain {a t as ts} : RustTree P a t → noInto P a = true → ArgTrees P as ts → ArgTrees P (a :: as) (t :: ts)
end

/-! ## Expressions that are printed correctly -/

/-- The operand on the right edge is a cast. -/
def endsCast : Expr → Bool
  | .cast _ _ => true
  | .bin _ _ r => endsCast r
  | _ => false

/-- A negative literal. -/
def negLit : Expr → Bool
  | .lit (.int i) => decide (i.value.toInt < 0)
  | _ => false

/-- The left operand of this expression is a negative literal. -/
def negLeft : Expr → Bool
  | .bin l _ _ => negLit l
  | _ => false

/-- A cast, which is put in parentheses before `<<`. -/
def isCast : Expr → Bool
  | .cast _ _ => true
  | _ => false

/-- In a block nothing is applied to a conditional expression, an assignment or an increment on the left edge. -/
def FitsBlock (e : Expr) : Prop := isBlockLike e = true ∨ beginsBlock e = false

mutual
/-- No cast is followed by `<` or `<<`, no negative literal by a method or field, and the branches of conditional
expressions are fit for blocks. -/
def Separated : Expr → Prop
  | .bin l op r =>
    (op = .lt → endsCast l = false) ∧ (op = .shl → endsCast l = true → isCast l = true) ∧
    (op = .memberAccess → negLit l = false) ∧ Separated l ∧ Separated r
  | .un op e => (op = .deref → negLeft e = false) ∧ Separated e
  | .cast _ e => Separated e
  | .call _ as => SeparatedAll as
  | .ternary c t f => FitsBlock t ∧ FitsBlock f ∧ Separated c ∧ Separated t ∧ Separated f
  | _ => True
/-- The same of all arguments of a call. -/
def SeparatedAll : List Expr → Prop
  | [] => True
  | a :: as => Separated a ∧ SeparatedAll as
end

end CMacro.Spec
