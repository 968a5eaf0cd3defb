import Verif.Model.Rust

/-!
# Code generation, first pass: `finish`

Model of the `finish` methods (/repo/src/ast/**): type inference, constant folding and the
rewriting of ambiguous parses.  They mutate the tree and the local context and can fail half way
through; the mutated tree matters because one caller looks at it after a failure, so every
function here returns tree, context and result.
-/

namespace CMacro

/-- What a `finish` call leaves behind (/repo/src/ast/expr.rs:362). -/
structure Fin (α : Type) where
  tree : α
  st : LState
  res : CgRes (Option Ty)

/-! ## Literals -/

/-- The suffix of a folded integer (/repo/src/ast/literal/int.rs:171-174, repeated for every
operator): the common suffix, or the only one. -/
def mergeSuffix : Option BuiltInType → Option BuiltInType → Option BuiltInType
  | some a, some b => if a = b then some a else none
  | some a, none => some a
  | none, s => s

/-- The shift amount (/repo/src/ast/literal/int.rs:235): `min(u32::MAX) as u32`, of which
`wrapping_shl` uses the low seven bits. -/
def shiftAmount (v : BitVec 128) : Nat :=
  ((if v.sle (BitVec.ofNat 128 4294967295) then v else BitVec.ofNat 128 4294967295).toNat % 4294967296) % 128

/-- /repo/src/ast/literal/int.rs:166-295: the operators of `LitInt`; `none` is a panic
(division by zero) or an operator that integers do not have. -/
def LitInt.op : BinOp → LitInt → LitInt → Option LitInt
  | .add, a, b => some ⟨a.value + b.value, mergeSuffix a.suffix b.suffix⟩
  | .sub, a, b => some ⟨a.value - b.value, mergeSuffix a.suffix b.suffix⟩
  | .mul, a, b => some ⟨a.value * b.value, mergeSuffix a.suffix b.suffix⟩
  | .div, a, b => if b.value = 0 then none else some ⟨a.value.sdiv b.value, mergeSuffix a.suffix b.suffix⟩
  | .rem, a, b => if b.value = 0 then none else some ⟨a.value.srem b.value, mergeSuffix a.suffix b.suffix⟩
  | .shl, a, b => some ⟨a.value <<< shiftAmount b.value, mergeSuffix a.suffix b.suffix⟩
  | .shr, a, b => some ⟨a.value.sshiftRight (shiftAmount b.value), mergeSuffix a.suffix b.suffix⟩
  | .bitAnd, a, b => some ⟨a.value &&& b.value, mergeSuffix a.suffix b.suffix⟩
  | .bitOr, a, b => some ⟨a.value ||| b.value, mergeSuffix a.suffix b.suffix⟩
  | .bitXor, a, b => some ⟨a.value ^^^ b.value, mergeSuffix a.suffix b.suffix⟩
  | _, _, _ => none

/-- The operators folded for integers (/repo/src/ast/expr.rs:584-635). -/
def BinOp.foldsInt : BinOp → Bool
  | .add | .sub | .mul | .div | .rem | .shl | .shr | .bitAnd | .bitOr | .bitXor => true
  | _ => false

/-- The operators folded for floats (/repo/src/ast/expr.rs:580-615). -/
def BinOp.foldsFloat : BinOp → Bool
  | .add | .sub | .mul | .div => true
  | _ => false

/-- The value of a `LitFloat`, the first component telling whether it is an `f32`
(/repo/src/ast/literal/float.rs:45-52). -/
def LitFloat.val : LitFloat → Bool × FVal
  | .float v => (true, v)
  | .double v => (false, v)
  | .longDouble v => (false, v)

/-- The four operations on values (`f32`/`f64` arithmetic, not interpreted)
(/repo/src/ast/expr.rs:580-611). -/
def FVal.op : BinOp → FVal → FVal → FVal
  | .add, a, b => .add a b
  | .sub, a, b => .sub a b
  | .mul, a, b => .mul a b
  | _, a, b => .div a b

/-- /repo/src/ast/literal/float.rs:154-212: the operators of `LitFloat`. -/
def LitFloat.op (o : BinOp) (a b : LitFloat) : LitFloat :=
  match a.val, b.val with
  | (true, x), (true, y) => .float (x.op o y)
  | (true, x), (false, y) => .double (x.widen.op o y)
  | (false, x), (true, y) => .double (x.op o y.widen)
  | (false, x), (false, y) => .double (x.op o y)

/-- Negation (/repo/src/ast/expr.rs:534-540). -/
def LitFloat.neg : LitFloat → LitFloat
  | .float v => .float (.neg v)
  | .double v => .double (.neg v)
  | .longDouble v => .longDouble (.neg v)

/-- The suffix after a unary minus (/repo/src/ast/expr.rs:525-531). -/
def negSuffix : Option BuiltInType → Option BuiltInType
  | some .uChar | some .sChar => some .sChar
  | some .uInt | some .int => some .int
  | some .uLong | some .long => some .long
  | some .uLongLong | some .longLong => some .longLong
  | _ => none

/-! ## The context -/

/-- `ctx.arg_type_mut(i)` (/repo/src/context.rs:62-64); `none` is the index panic. -/
def LState.argTy (st : LState) (i : Nat) : Option ArgTy := st.argTypes[i]?

/-- `*ctx.arg_type_mut(i) = t`, once the index is known to be in range
(/repo/src/context.rs:62-64; /repo/src/ast/function_decl.rs:50). -/
def LState.setArg (st : LState) (i : Nat) (t : ArgTy) : LState :=
  { st with argTypes := st.argTypes.set i t }

/-- `ctx.export_as_macro = true` (/repo/src/ast/var.rs:37,41; /repo/src/ast/asm.rs:211). -/
def LState.export (st : LState) : LState := { st with exportAsMacro := true }

/-- `*const char`, the type of strings (/repo/src/ast/var.rs:42-45). -/
def Ty.charPtr : Ty := .qualified (.ptr (.builtIn .char)) .const

/-- An `UnsupportedExpression` error (/repo/src/error.rs:36; /repo/src/ast/unary_expr.rs:78). -/
def unsupported (what : Str) : CgFail := .err (.unsupportedExpression what)

/-- The loop of /repo/src/ast/identifier_expr.rs:105-120. -/
def finishConcat : List IdentCont → LState → LState × CgRes Unit
  | [], st => (st, .ok ())
  | .arg i :: ids, st =>
    match st.argTy i with
    | none => (st, .error .panic)
    | some _ => finishConcat ids (st.setArg i .ident)
  | .plain _ :: ids, st => finishConcat ids st
  | .int n :: _, st =>
    if n.suffix = none ∧ 0 ≤ n.value.toInt then
      (st, .error (unsupported c!"concatenation of identifiers and literals"))
    else (st, .error .panic)

/-- /repo/src/ast/identifier_expr.rs:94-125, `IdentifierExpr::finish`. -/
def IdentExpr.finish : IdentExpr → LState → LState × CgRes Unit
  | .concat ids, st => finishConcat ids st
  | _, st => (st, .ok ())

/-- /repo/src/ast/ty.rs:428-451, `Type::finish`. -/
def Ty.finish (C : Ctx) : Ty → LState → Fin Ty
  | .builtIn b, st => ⟨.builtIn b, st, .ok none⟩
  | .ident name s, st =>
    match name.finish st with
    | (st, .error e) => ⟨.ident name s, st, .error e⟩
    | (st, .ok ()) =>
      match name with
      | .plain id =>
        match C.resolveTy id with
        | none => ⟨.ident name s, st, .error (.err (.unsupportedType id))⟩
        | some t =>
          match Ty.fromRust C.ffiPrefix t with
          | .ok t => ⟨t, st, .ok none⟩
          | .error e => ⟨.ident name s, st, .error e⟩
      | _ => ⟨.ident name s, st, .ok none⟩
  | .path lc segs, st => ⟨.path lc segs, st, .ok none⟩
  | .ptr t, st => let r := t.finish C st; ⟨.ptr r.tree, r.st, r.res⟩
  | .qualified t q, st => let r := t.finish C st; ⟨.qualified r.tree q, r.st, r.res⟩

/-- The type `wchar_t` (/repo/src/ast/literal/char.rs:137-142). -/
def wcharTy : Ty := .ident (.plain c!"wchar_t") false

/-- A `Type::finish` call on `wchar_t`, whose result is used as a type
(/repo/src/ast/literal/char.rs:136-143). -/
def finishWchar (C : Ctx) (st : LState) : CgRes Ty :=
  match wcharTy.finish C st with
  | ⟨t, _, .ok _⟩ => .ok t
  | ⟨_, _, .error e⟩ => .error e

/-- /repo/src/ast/literal/char.rs:124-145, `LitChar::finish`. -/
def LitChar.finish (C : Ctx) (st : LState) : LitChar → CgRes Ty
  | .ordinary _ => .ok (.builtIn .char)
  | .utf8 _ => .ok (.builtIn .char8T)
  | .utf16 _ => .ok (.builtIn .char16T)
  | .utf32 _ => .ok (.builtIn .char32T)
  | .wide _ => finishWchar C st

/-- The pointer type around the element type (/repo/src/ast/literal/string.rs:359). -/
def constPtr (t : Ty) : Ty := .qualified (.ptr t) .const

/-- /repo/src/ast/literal/string.rs:340-360, `LitString::finish`. -/
def LitString.finish (C : Ctx) (st : LState) : LitString → CgRes Ty
  | .ordinary _ => .ok (constPtr (.builtIn .char))
  | .utf8 _ => .ok (constPtr (.builtIn .char8T))
  | .utf16 _ => .ok (constPtr (.builtIn .char16T))
  | .utf32 _ => .ok (constPtr (.builtIn .char32T))
  | .wide _ => match finishWchar C st with
    | .ok t => .ok (constPtr t)
    | .error e => .error e

/-- /repo/src/ast/literal/float.rs:107-119, `LitFloat::finish`. -/
def LitFloat.ty : LitFloat → Ty
  | .float _ => .builtIn .float
  | .double _ => .builtIn .double
  | .longDouble _ => .builtIn .longDouble

/-- /repo/src/ast/literal.rs:80-90, `Lit::finish`; integers have no type
(/repo/src/ast/literal/int.rs:150-158). -/
def Lit.finish (C : Ctx) (st : LState) : Lit → CgRes (Option Ty)
  | .char c => match c.finish C st with
    | .ok t => .ok (some t)
    | .error e => .error e
  | .string s => match s.finish C st with
    | .ok t => .ok (some t)
    | .error e => .error e
  | .float f => .ok (some f.ty)
  | .int _ => .ok none

/-- The built-in macros with a fixed type (/repo/src/ast/var.rs:47-51). -/
def limitTy (id : Str) : Option BuiltInType :=
  if id = c!"__SCHAR_MAX__" then some .sChar
  else if id = c!"__SHRT_MAX__" then some .short
  else if id = c!"__INT_MAX__" then some .int
  else if id = c!"__LONG_MAX__" then some .long
  else if id = c!"__LONG_LONG_MAX__" then some .longLong
  else none

/-- /repo/src/ast/var.rs:19-65, `Var::finish`. -/
def finishVar (C : Ctx) (name : IdentExpr) (st : LState) : LState × CgRes (Option Ty) :=
  match name.finish st with
  | (st, .error e) => (st, .error e)
  | (st, .ok ()) =>
    match name with
    | .arg i =>
      match st.argTy i with
      | none => (st, .error .panic)
      | some (.known t) => (st, .ok (some t))
      | some _ => (st, .ok none)
    | .plain id =>
      if id = c!"__LINE__" then (st.export, .ok (some (.builtIn .uInt)))
      else if id = c!"__FILE__" then (st.export, .ok (some Ty.charPtr))
      else match limitTy id with
      | some b => (st, .ok (some (.builtIn b)))
      | none =>
        match C.resolveEnumVariant id with
        | some (t, _) =>
          match Ty.fromRust C.ffiPrefix t with
          | .ok t => (st, .ok (some t))
          | .error e => (st, .error e)
        | none => (st.export, .ok none)
    | .concat _ => (st, .ok none)

/-- `self.args[i]` is a macro argument (/repo/src/ast/function_call.rs:49). -/
def Expr.asArg : Expr → Option Nat
  | .var (.arg i) => some i
  | _ => none

/-- Inference of the types of macro arguments from a known function
(/repo/src/ast/function_call.rs:46-55). -/
def inferArgs (C : Ctx) : List Expr → List RTy → LState → LState × CgRes Unit
  | a :: as, t :: ts, st =>
    match a.asArg with
    | none => inferArgs C as ts st
    | some i =>
      match st.argTy i with
      | none => (st, .error .panic)
      | some .unknown =>
        match Ty.fromRust C.ffiPrefix t with
        | .ok t => inferArgs C as ts (st.setArg i (.known t))
        | .error e => (st, .error e)
      | some _ => inferArgs C as ts st
  | _, _, st => (st, .ok ())

/-- An argument of `offsetof` (/repo/src/ast/function_call.rs:62-67). -/
def offsetofArg (a : Expr) (t : ArgTy) (st : LState) : LState × CgRes Unit :=
  match a.asArg with
  | none => (st, .ok ())
  | some i =>
    match st.argTy i with
    | none => (st, .error .panic)
    | some .unknown => (st.setArg i t, .ok ())
    | some _ => (st, .ok ())

/-- /repo/src/ast/function_call.rs:39-81: what `FunctionCall::finish` does after finishing the
arguments. -/
def finishCallee (C : Ctx) (name : IdentExpr) (args : List Expr) (st : LState) :
    LState × CgRes (Option Ty) :=
  match name with
  | .plain id =>
    match C.function id with
    | some (known, ret) =>
      if known.length = args.length then
        match Ty.fromRust C.ffiPrefix ret with
        | .error e => (st, .error e)
        | .ok t =>
          match inferArgs C args known st with
          | (st, .ok ()) => (st, .ok (some t))
          | (st, .error e) => (st, .error e)
      else (st, .ok none)
    | none =>
      let st := st.export
      if id = c!"__builtin_offsetof" then
        match args with
        | [a, b] =>
          match offsetofArg a .ty st with
          | (st, .error e) => (st, .error e)
          | (st, .ok ()) =>
            match offsetofArg b .tt st with
            | (st, .error e) => (st, .error e)
            | (st, .ok ()) => (st, .ok none)
        | _ => (st, .ok none)
      else (st, .ok none)
  | _ => (st, .ok none)

/-- /repo/src/ast/stringify.rs:40-61, `Stringify::finish`. -/
def finishStringify (name : IdentExpr) (st : LState) : LState × CgRes (Option Ty) :=
  match name with
  | .arg i =>
    match st.argTy i with
    | none => (st, .error .panic)
    | some .ident => (st, .ok (some Ty.charPtr))
    | some _ => (st.setArg i .expr, .ok (some Ty.charPtr))
  | .plain id =>
    if id = c!"__LINE__" ∨ id = c!"__FILE__" then (st.export, .ok (some Ty.charPtr))
    else (st, .error (unsupported c!"stringification"))
  | .concat _ => (st, .error (unsupported c!"stringification"))

/-- `Option::xor` after the equality test (/repo/src/ast/binary_expr.rs:275-280). -/
def joinTy (a b : Option Ty) : Option Ty :=
  if a = b then a else
  match a, b with
  | some t, none => some t
  | none, some t => some t
  | _, _ => none

/-- /repo/src/ast/binary_expr.rs:112-127, `BinaryOp::is_assignment`. -/
def BinOp.isAssignment : BinOp → Bool
  | .assign | .addAssign | .subAssign | .mulAssign | .divAssign | .remAssign | .shlAssign
  | .shrAssign | .bitAndAssign | .bitXorAssign | .bitOrAssign => true
  | _ => false

/-- The closure `max_ty_cast` (/repo/src/ast/binary_expr.rs:194-207). -/
def maxTyCast : Expr → Option Ty
  | .var (.plain id) =>
    if id = c!"__SCHAR_MAX__" then some (.builtIn .uChar)
    else if id = c!"__SHRT_MAX__" then some (.builtIn .uShort)
    else if id = c!"__INT_MAX__" then some (.builtIn .uInt)
    else if id = c!"__LONG_MAX__" then some (.builtIn .uLong)
    else if id = c!"__LONG_LONG_MAX__" then some (.builtIn .uLongLong)
    else none
  | _ => none

/-- An unsuffixed integer literal as a floating point literal
(/repo/src/ast/binary_expr.rs:227-231): `f32::MIN as i128` and `f32::MAX as i128` saturate to
the bounds of `i128`, so the first branch is always taken. -/
def intAsFloat (v : BitVec 128) : LitFloat := .float (.ofInt v)

/-- The operands and their types after /repo/src/ast/binary_expr.rs:224-257. -/
def adjustOperands (op : BinOp) (lhs rhs : Expr) (lt rt : Option Ty) :
    Expr × Expr × Option Ty × Option Ty :=
  match lhs, rhs with
  | .lit (.int ⟨v, none⟩), .lit (.float _) =>
    (.lit (.float (intAsFloat v)), rhs, some (intAsFloat v).ty, rt)
  | .lit (.float _), .lit (.int ⟨v, none⟩) =>
    (lhs, .lit (.float (intAsFloat v)), lt, some (intAsFloat v).ty)
  | l, .lit (.int i) =>
    if op = .mul ∨ op = .add then
      match maxTyCast l with
      | some t => (.cast t l, .lit (.int i), some t, rt)
      | none => (l, .lit (.int i), lt, rt)
    else (l, .lit (.int i), lt, rt)
  | .lit (.int i), r =>
    if op = .mul ∨ op = .add then
      match maxTyCast r with
      | some t => (.lit (.int i), .cast t r, lt, some t)
      | none => (.lit (.int i), r, lt, rt)
    else (.lit (.int i), r, lt, rt)
  | l, r => (l, r, lt, rt)

/-- Side effects of the operator on the context (/repo/src/ast/binary_expr.rs:212-222). -/
def binaryEffects (op : BinOp) (lhs rhs : Expr) (st : LState) : LState × CgRes Unit :=
  let r : LState × CgRes Unit :=
    if op = .memberAccess then
      match rhs.asArg with
      | none => (st, .ok ())
      | some i =>
        match st.argTy i with
        | none => (st, .error .panic)
        | some _ => (st.setArg i .ident, .ok ())
    else (st, .ok ())
  match r with
  | (st, .error e) => (st, .error e)
  | (st, .ok ()) =>
    if op.isAssignment ∧ lhs.asArg.isSome then (st.export, .ok ()) else (st, .ok ())

/-- The type of a member access (/repo/src/ast/binary_expr.rs:259-273). -/
def memberTy (C : Ctx) (lt : Option Ty) (rhs : Expr) : CgRes (Option Ty) :=
  match lt, rhs with
  | some (.ident (.plain t) _), .var (.plain f) =>
    match C.resolveFieldTy t f with
    | some t =>
      match Ty.fromRust C.ffiPrefix t with
      | .ok t => .ok (some t)
      | .error e => .error e
    | none => .ok none
  | _, _ => .ok none

/-- /repo/src/ast/unary_expr.rs:73-90: the type `UnaryExpr::finish` gives, from the type of the
operand. -/
def unaryTy (L : Loc) (op : UnOp) (t : Option Ty) : CgRes (Option Ty) :=
  match op with
  | .not => .ok (some (.builtIn .bool))
  | .deref =>
    if L.isVar then .error (unsupported c!"dereference in variable-like macro")
    else match t with
      | some (.ptr t) => .ok (some t)
      | none => .ok none
      | some _ => .error (unsupported c!"dereference of non-pointer")
  | .addrOf => .ok (t.map .ptr)
  | _ => .ok t

/-- The zero compared with by the rewriting of `!` (/repo/src/ast/expr.rs:557-562). -/
def zeroOf : Option Ty → Expr
  | some (.builtIn .float) => .lit (.float (.float (.parse c!"0.0")))
  | some (.builtIn .double) => .lit (.float (.double (.parse c!"0.0")))
  | some (.builtIn .longDouble) => .lit (.float (.longDouble (.parse c!"0.0")))
  | _ => .lit (.int ⟨0, none⟩)

/-- Folding of a unary operator (/repo/src/ast/expr.rs:520-571): the new tree, or an error. -/
def foldUnary (C : Ctx) (op : UnOp) (e : Expr) (t : Option Ty) : Except CgErr Expr :=
  match op, e with
  | .plus, .lit (.int i) => .ok (.lit (.int i))
  | .plus, .lit (.float f) => .ok (.lit (.float f))
  | .minus, .lit (.int i) => .ok (.lit (.int ⟨-i.value, negSuffix i.suffix⟩))
  | .minus, .lit (.float f) => .ok (.lit (.float f.neg))
  | .not, .lit (.int ⟨v, none⟩) => .ok (.lit (.int ⟨if v = 0 then 1 else 0, none⟩))
  | .not, .lit (.float f) => .ok (.lit (.int ⟨if C.fIsZero f.val.2 then 1 else 0, none⟩))
  | .not, e => if t ≠ some (.builtIn .bool) then .ok (.bin e .eq (zeroOf t)) else .ok (.un .not e)
  | .comp, .lit (.float _) => .error (.unsupportedExpression c!"complement of float or string")
  | .comp, .lit (.string _) => .error (.unsupportedExpression c!"complement of float or string")
  | op, e => .ok (.un op e)

/-- Folding of a binary operator on literals (/repo/src/ast/expr.rs:579-635): `none` when
nothing is folded, an error for a panic. -/
def foldBinary (op : BinOp) (lhs rhs : Expr) : Option (CgRes Expr) :=
  match lhs, rhs with
  | .lit (.int a), .lit (.int b) =>
    if op.foldsInt then
      match LitInt.op op a b with
      | some c => some (.ok (.lit (.int c)))
      | none => some (.error .panic)
    else none
  | .lit (.float a), .lit (.float b) =>
    if op.foldsFloat then some (.ok (.lit (.float (LitFloat.op op a b)))) else none
  | _, _ => none

/-- The operators whose type is `bool` (/repo/src/ast/expr.rs:636-647). -/
def BinOp.isBool : BinOp → Bool
  | .eq | .neq | .and | .or | .lt | .lte | .gt | .gte => true
  | _ => false

/-- The binary operator meant by an ambiguous unary one (/repo/src/ast/expr.rs:417-423). -/
def UnOp.asBinary : UnOp → Option BinOp
  | .plus => some .add
  | .minus => some .sub
  | .deref => some .mul
  | .addrOf => some .bitAnd
  | _ => none

/-- `treat_as_binop` (/repo/src/ast/expr.rs:404-414). -/
def treatAsBinop (C : Ctx) : IdentExpr → Bool
  | .plain id => (C.resolveTy id).isNone
  | _ => true

/-- The second rewriting of casts, `(x) - e` (/repo/src/ast/expr.rs:402-433). -/
def castAsBinary (C : Ctx) : Ty → Expr → Option Expr
  | .ident name false, .un op e =>
    if treatAsBinop C name then op.asBinary.map fun o => .bin (.var name) o e else none
  | _, _ => none

/-- The first rewriting of casts, after an error (/repo/src/ast/expr.rs:370-396). -/
def castAsProduct : Ty → Expr → Option Expr
  | ty1, .cast (.ident name false) (.un .deref (.cast ty3 e3)) =>
    if ty1 = ty3 then some (.bin (.cast ty1 (.var name)) .mul (.cast ty3 e3)) else none
  | _, _ => none

/-- The third rewriting, `(const char*)"…"` (/repo/src/ast/expr.rs:435-442). -/
def castOfString : Ty → Expr → Bool
  | .qualified (.ptr (.builtIn .char)) q, .lit (.string (.ordinary _)) => q.isConst
  | _, _ => false

/-- `CodegenError::UnsupportedExpression(_)` (/repo/src/ast/expr.rs:373). -/
def CgFail.isUnsupportedExpr : CgFail → Bool
  | .err (.unsupportedExpression _) => true
  | _ => false

/-- Finishing a list of expressions in order, stopping at the first error
(/repo/src/ast/function_call.rs:33-35). -/
def finishArgs (f : Expr → LState → Fin Expr) : List Expr → LState → List Expr × LState × CgRes Unit
  | [], st => ([], st, .ok ())
  | e :: es, st =>
    match f e st with
    | ⟨e, st, .error x⟩ => (e :: es, st, .error x)
    | ⟨e, st, .ok _⟩ =>
      match finishArgs f es st with
      | (es, st, r) => (e :: es, st, r)

/-- Flushing `current_name` (/repo/src/ast/expr.rs:495-497). -/
def flush : Option (List UInt8) → List Expr
  | some bs => [.lit (.string (.ordinary bs))]
  | none => []

/-- A part that cannot be part of a string (/repo/src/ast/expr.rs:477-491). -/
def badPart : Expr → Bool
  | .var (.plain id) => decide (id ≠ c!"__FILE__")
  | _ => false

/-- The loop of /repo/src/ast/expr.rs:456-504: the mutated parts, the context, and the new parts
or an error. -/
def finishParts (f : Expr → LState → Fin Expr) :
    List Expr → Option (List UInt8) → LState → List Expr × LState × CgRes (List Expr)
  | [], cur, st => ([], st, .ok (flush cur))
  | p :: ps, cur, st =>
    match f p st with
    | ⟨p, st, .error x⟩ => (p :: ps, st, .error x)
    | ⟨p, st, .ok _⟩ =>
      match p with
      | .lit (.string s) =>
        match s.asBytes with
        | none => (p :: ps, st, .error (unsupported c!"concatenation of wide strings"))
        | some bs =>
          match finishParts f ps (some (cur.getD [] ++ bs)) st with
          | (ps, st, r) => (p :: ps, st, r)
      | p =>
        if badPart p then (p :: ps, st, .error (unsupported c!"concatenation of variables"))
        else
          match finishParts f ps none st with
          | (ps, st, .ok new) => (p :: ps, st, .ok (flush cur ++ p :: new))
          | (ps, st, .error x) => (p :: ps, st, .error x)

/-- /repo/src/ast/expr.rs:342-360, `Expr::finish_condition`. -/
def finishCondition (f : Expr → LState → Fin Expr) (e : Expr) (st : LState) : Fin Expr :=
  match f e st with
  | ⟨e, st, .error x⟩ => ⟨e, st, .error x⟩
  | ⟨e, st, .ok t⟩ =>
    if t ≠ some (.builtIn .bool) then
      ⟨.bin e .neq (.lit (.int ⟨0, none⟩)), st, .ok (some (.builtIn .bool))⟩
    else ⟨e, st, .ok (some (.builtIn .bool))⟩

/-- One level of `Expr::finish` (/repo/src/ast/expr.rs:362-657); `f` is the recursive call.
`UnaryExpr::finish`, `BinaryExpr::finish`, `TernaryExpr::finish`, `Cast::finish` and
`FunctionCall::finish` are inlined. -/
def finishStep (C : Ctx) (L : Loc) (f : Expr → LState → Fin Expr) (e : Expr) (st : LState) : Fin Expr :=
  match e with
  | .cast ty x =>
    match ty.finish C st with
    | ⟨ty, st, .error err⟩ =>
      match err.isUnsupportedExpr, castAsProduct ty x with
      | true, some e => f e st
      | _, _ => ⟨.cast ty x, st, .error err⟩
    | ⟨ty, st, .ok _⟩ =>
      match f x st with
      | ⟨x, st, .error err⟩ =>
        match err.isUnsupportedExpr, castAsProduct ty x with
        | true, some e => f e st
        | _, _ => ⟨.cast ty x, st, .error err⟩
      | ⟨x, st, .ok _⟩ =>
        match castAsBinary C ty x with
        | some e => f e st
        | none =>
          if castOfString ty x then f x st
          else ⟨.cast ty x, st, .ok (some ty)⟩
  | .var name =>
    match finishVar C name st with
    | (st, r) => ⟨.var name, st, r⟩
  | .call name args =>
    if L.isVar then
      ⟨.call name args, st, .error (unsupported c!"function call in variable-like macro")⟩
    else
      match name.finish st with
      | (st, .error err) => ⟨.call name args, st, .error err⟩
      | (st, .ok ()) =>
        match finishArgs f args st with
        | (args, st, .error err) => ⟨.call name args, st, .error err⟩
        | (args, st, .ok ()) =>
          match finishCallee C name args st with
          | (st, r) => ⟨.call name args, st, r⟩
  | .lit (.char c) =>
    match c.finish C st with
    | .ok t => ⟨.cast t (.lit (.char c)), st, .ok (some t)⟩
    | .error err => ⟨.lit (.char c), st, .error err⟩
  | .lit l => ⟨.lit l, st, l.finish C st⟩
  | .stringify name =>
    match finishStringify name st with
    | (st, r) => ⟨.stringify name, st, r⟩
  | .concatStr parts =>
    match finishParts f parts none st with
    | (parts, st, .error err) => ⟨.concatStr parts, st, .error err⟩
    | (_, st, .ok [p]) => f p st
    | (_, st, .ok new) => ⟨.concatStr new, st, .ok (some Ty.charPtr)⟩
  | .un op x =>
    match f x st with
    | ⟨x, st, .error err⟩ => ⟨.un op x, st, .error err⟩
    | ⟨x, st, .ok t⟩ =>
      match unaryTy L op t with
      | .error err => ⟨.un op x, st, .error err⟩
      | .ok t =>
        match foldUnary C op x t with
        | .error err => ⟨.un op x, st, .error (.err err)⟩
        | .ok e => ⟨e, st, .ok t⟩
  | .bin lhs op rhs =>
    match f lhs st with
    | ⟨lhs, st, .error err⟩ => ⟨.bin lhs op rhs, st, .error err⟩
    | ⟨lhs, st, .ok lt⟩ =>
      match f rhs st with
      | ⟨rhs, st, .error err⟩ => ⟨.bin lhs op rhs, st, .error err⟩
      | ⟨rhs, st, .ok rt⟩ =>
        match binaryEffects op lhs rhs st with
        | (st, .error err) => ⟨.bin lhs op rhs, st, .error err⟩
        | (st, .ok ()) =>
          match adjustOperands op lhs rhs lt rt with
          | (lhs, rhs, lt, rt) =>
            if op = .memberAccess then
              ⟨.bin lhs op rhs, st, memberTy C lt rhs⟩
            else
              match foldBinary op lhs rhs with
              | some (.error err) => ⟨.bin lhs op rhs, st, .error err⟩
              | some (.ok e) => f e st
              | none =>
                ⟨.bin lhs op rhs, st,
                  .ok (if op.isBool then some (.builtIn .bool) else joinTy lt rt)⟩
  | .ternary c t u =>
    match finishCondition f c st with
    | ⟨c, st, .error err⟩ => ⟨.ternary c t u, st, .error err⟩
    | ⟨c, st, .ok _⟩ =>
      match f t st with
      | ⟨t, st, .error err⟩ => ⟨.ternary c t u, st, .error err⟩
      | ⟨t, st, .ok tt⟩ =>
        match f u st with
        | ⟨u, st, .error err⟩ => ⟨.ternary c t u, st, .error err⟩
        | ⟨u, st, .ok ut⟩ => ⟨.ternary c t u, st, .ok (joinTy tt ut)⟩
  | .sizeOf ty =>
    match ty.finish C st with
    | ⟨ty, st, .error err⟩ => ⟨.sizeOf ty, st, .error err⟩
    | ⟨ty, st, .ok _⟩ => ⟨.sizeOf ty, st, .ok (some (.builtIn .sizeT))⟩

/-- /repo/src/ast/expr.rs:362-657, `Expr::finish`, with a bound on the depth of calls. -/
def Expr.finish (C : Ctx) (L : Loc) : Nat → Expr → LState → Fin Expr
  | 0 => fun e st => ⟨e, st, .error .diverge⟩
  | n + 1 => finishStep C L (Expr.finish C L n)

/-! ## Statements -/

/-- Finishing the operands of an `asm` (/repo/src/ast/asm.rs:202-208). -/
def finishOutputs (f : Expr → LState → Fin Expr) :
    List (Dir × RegConstraint × Expr) → LState → List (Dir × RegConstraint × Expr) × LState × CgRes Unit
  | [], st => ([], st, .ok ())
  | (d, r, e) :: es, st =>
    match f e st with
    | ⟨e, st, .error x⟩ => ((d, r, e) :: es, st, .error x)
    | ⟨e, st, .ok _⟩ =>
      match finishOutputs f es st with
      | (es, st, x) => ((d, r, e) :: es, st, x)

/-- Finishing the inputs of an `asm` (/repo/src/ast/asm.rs:206-208). -/
def finishInputs (f : Expr → LState → Fin Expr) :
    List (RegConstraint × Expr) → LState → List (RegConstraint × Expr) × LState × CgRes Unit
  | [], st => ([], st, .ok ())
  | (r, e) :: es, st =>
    match f e st with
    | ⟨e, st, .error x⟩ => ((r, e) :: es, st, .error x)
    | ⟨e, st, .ok _⟩ =>
      match finishInputs f es st with
      | (es, st, x) => ((r, e) :: es, st, x)

/-- /repo/src/ast/asm.rs:230-235, `Asm::is_global`. -/
def Asm.isGlobal (a : Asm) : Bool :=
  a.template.any fun l => c!".globl".isPrefixOf l || c!".global".isPrefixOf l || c!".section".isPrefixOf l

/-- /repo/src/ast/asm.rs:198-215, `Asm::finish`. -/
def Asm.finish (f : Expr → LState → Fin Expr) (a : Asm) (st : LState) : Asm × LState × CgRes Unit :=
  match finishOutputs f a.outputs st with
  | (outs, st, .error x) => ({ a with outputs := outs }, st, .error x)
  | (outs, st, .ok ()) =>
    match finishInputs f a.inputs st with
    | (ins, st, .error x) => ({ a with outputs := outs, inputs := ins }, st, .error x)
    | (ins, st, .ok ()) =>
      ({ a with outputs := outs, inputs := ins }, if a.isGlobal then st.export else st, .ok ())

/-- The parameter types of a declaration (/repo/src/ast/function_decl.rs:53-55). -/
def finishDeclArgs (C : Ctx) : List (Ty × IdentExpr) → LState → List (Ty × IdentExpr) × LState × CgRes Unit
  | [], st => ([], st, .ok ())
  | (t, n) :: as, st =>
    match t.finish C st with
    | ⟨t, st, .error x⟩ => ((t, n) :: as, st, .error x)
    | ⟨t, st, .ok _⟩ =>
      match finishDeclArgs C as st with
      | (as, st, x) => ((t, n) :: as, st, x)

/-- /repo/src/ast/function_decl.rs:43-59, `FunctionDecl::finish`. -/
def FunctionDecl.finish (C : Ctx) (d : FunctionDecl) (st : LState) : FunctionDecl × LState × CgRes Unit :=
  match d.retTy.finish C st with
  | ⟨t, st, .error x⟩ => ({ d with retTy := t }, st, .error x)
  | ⟨t, st, .ok _⟩ =>
    let r : LState × CgRes Unit := match d.name with
      | .arg i => match st.argTy i with
        | none => (st, .error .panic)
        | some _ => (st.setArg i .ident, .ok ())
      | _ => (st, .ok ())
    match r with
    | (st, .error x) => ({ d with retTy := t }, st, .error x)
    | (st, .ok ()) =>
      match finishDeclArgs C d.args st with
      | (as, st, x) => ({ d with retTy := t, args := as }, st, x)

/-- /repo/src/ast/var_decl.rs:37-46, `VarDecl::finish`. -/
def VarDecl.finish (C : Ctx) (f : Expr → LState → Fin Expr) (d : VarDecl) (st : LState) :
    VarDecl × LState × CgRes Unit :=
  match d.ty.finish C st with
  | ⟨t, st, .error x⟩ => ({ d with ty := t }, st, .error x)
  | ⟨t, st, .ok _⟩ =>
    match d.name.finish st with
    | (st, .error x) => ({ d with ty := t }, st, .error x)
    | (st, .ok ()) =>
      match f d.rhs st with
      | ⟨e, st, .error x⟩ => ({ d with ty := t, rhs := e }, st, .error x)
      | ⟨e, st, .ok _⟩ => ({ d with ty := t, rhs := e }, st, .ok ())

mutual
/-- /repo/src/ast/statement.rs:101-144, `Statement::finish`; the type is always `void`. -/
def Stmt.finish (C : Ctx) (f : Expr → LState → Fin Expr) : Stmt → LState → Stmt × LState × CgRes Unit
  | .asm a, st => match a.finish f st with
    | (a, st, r) => (.asm a, st, r)
  | .expr e, st => match f e st with
    | ⟨e, st, .error x⟩ => (.expr e, st, .error x)
    | ⟨e, st, .ok _⟩ => (.expr e, st, .ok ())
  | .fnDecl d, st => match d.finish C st with
    | (d, st, r) => (.fnDecl d, st, r)
  | .varDecl d, st => match d.finish C f st with
    | (d, st, r) => (.varDecl d, st, r)
  | .block ss, st => match Stmt.finishL C f ss st with
    | (ss, st, r) => (.block ss, st, r)
  | .ite c t u, st =>
    match finishCondition f c st with
    | ⟨c, st, .error x⟩ => (.ite c t u, st, .error x)
    | ⟨c, st, .ok _⟩ =>
      match Stmt.finishL C f t st with
      | (t, st, .error x) => (.ite c t u, st, .error x)
      | (t, st, .ok ()) => match Stmt.finishL C f u st with
        | (u, st, r) => (.ite c t u, st, r)
  | .doWhile b c, st =>
    match Stmt.finishL C f b st with
    | (b, st, .error x) => (.doWhile b c, st, .error x)
    | (b, st, .ok ()) =>
      match finishCondition f c st with
      | ⟨c, st, .error x⟩ => (.doWhile b c, st, .error x)
      | ⟨c, st, .ok _⟩ => (.doWhile b c, st, .ok ())
/-- The loops over statements (/repo/src/ast/statement.rs:119-121). -/
def Stmt.finishL (C : Ctx) (f : Expr → LState → Fin Expr) : List Stmt → LState → List Stmt × LState × CgRes Unit
  | [], st => ([], st, .ok ())
  | s :: ss, st =>
    match Stmt.finish C f s st with
    | (s, st, .error x) => (s :: ss, st, .error x)
    | (s, st, .ok ()) => match Stmt.finishL C f ss st with
      | (ss, st, r) => (s :: ss, st, r)
end

/-- /repo/src/macro_body.rs:55-63, `MacroBody::finish`. -/
def MacroBody.finish (C : Ctx) (f : Expr → LState → Fin Expr) : MacroBody → LState → Fin MacroBody
  | .stmt s, st => match s.finish C f st with
    | (s, st, .error x) => ⟨.stmt s, st, .error x⟩
    | (s, st, .ok ()) => ⟨.stmt s, st, .ok (some (.builtIn .void))⟩
  | .expr e, st => match f e st with
    | ⟨e, st, r⟩ => ⟨.expr e, st, r⟩

end CMacro
