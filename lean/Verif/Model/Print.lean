import Verif.Model.Finish

/-!
# Code generation, second pass: tokens

Model of the `to_tokens`/`to_token_stream` methods (/repo/src/ast/**), of
/repo/src/codegen/mod.rs and of `VarMacro::generate` and `FnMacro::generate`.

The context is only read in this pass.  `format!("-{expr}").parse()` (/repo/src/ast/unary_expr.rs:210-213)
prints tokens and reads them back; that is taken to be the identity.
-/

namespace CMacro

/-- What the printing functions read: the contexts and `ctx.export_as_macro`
(/repo/src/context.rs:22-30). -/
structure PCtx where
  C : Ctx
  L : Loc
  asMacro : Bool

/-- Lists of tokens with a separator, `#(#xs),*` (/repo/src/fn_macro.rs:217). -/
def sepToks (sep : List RTok) : List (List RTok) → List RTok
  | [] => []
  | [x] => x
  | x :: xs => x ++ sep ++ sepToks sep xs

/-- Tokens of a path (`syn`) (/repo/src/ast/ty.rs:162). -/
def RPath.toks (p : RPath) : List RTok :=
  (if p.leadingColon then q!"::" else []) ++ sepToks q!"::" (p.segs.map fun s => [.id s])

/-- `#(#prefix::)*` for an optional path
(/repo/src/ast/ty.rs:162; /repo/src/ast/unary_expr.rs:118). -/
def prefixToks : Option RPath → List RTok
  | none => []
  | some p => p.toks ++ q!"::"

/-- Tokens of a Rust type (`syn`) (/repo/src/ast/ty.rs:190-192). -/
def RTy.toks : RTy → List RTok
  | .ptr m t => q!"*" ++ (if m then q!"mut" else q!"const") ++ t.toks
  | .unit => q!"( )"
  | .verbatim s => [.opaque s]
  | .path (.rich _ s) _ => [.opaque s]
  | .path .plain p => p.toks
  | .other s => [.opaque s]

/-- /repo/src/codegen/mod.rs:6-15, `quote_static_ref`. -/
def staticRef (L : Loc) (ty : List RTok) : List RTok :=
  if L.elision then q!"&" ++ ty else q!"& 'static" ++ ty

/-- /repo/src/codegen/mod.rs:18-32, `quote_c_char_ptr`. -/
def charPtrToks (P : PCtx) (bytes : List RTok) : List RTok :=
  q!"{ const BYTES :" ++ staticRef P.L q!"[ u8 ]" ++ q!"=" ++ bytes ++ q!". as_bytes ( ) ; BYTES . as_ptr ( ) as * const"
    ++ prefixToks P.C.ffiPrefix ++ q!"c_char }"

/-- /repo/src/ast/macro_arg.rs:24-37, `MacroArg::to_tokens`. -/
def argToks (P : PCtx) (i : Nat) : List RTok :=
  match P.L.argNames[i]? with
  | none => [.bad]
  | some n =>
    if n = c!"..." then q!"$ ( $ __VA_ARGS__ ) , *"
    else if P.asMacro then q!"$" ++ [.id n]
    else [.id n]

/-- /repo/src/ast/literal/int.rs:160-163, `LitInt::to_tokens`. -/
def LitInt.toks (i : LitInt) : List RTok := [.int i.value.toInt []]

/-- /repo/src/ast/identifier_expr.rs:158-167, `IdentifierContinuationExpr::to_token_stream`. -/
def IdentCont.toks (P : PCtx) : IdentCont → List RTok
  | .arg i => argToks P i
  | .plain id => [.id id]
  | .int n => n.toks

/-- /repo/src/ast/identifier_expr.rs:133-143, `IdentifierExpr::to_tokens`. -/
def IdentExpr.toks (P : PCtx) : IdentExpr → List RTok
  | .arg i => argToks P i
  | .plain id => [.id id]
  | .concat ids =>
    prefixToks P.C.traitPrefix ++ q!"concat_idents ! (" ++ sepToks q!"," (ids.map (·.toks P)) ++ q!")"

/-- /repo/src/ast/ty.rs:453-477, `Type::to_tokens`. -/
def Ty.toks (P : PCtx) : Ty → List RTok
  | .builtIn b => (b.toRust P.C).toks
  | .ident name _ => name.toks P
  | .path lc segs => (if lc then q!"::" else []) ++ sepToks q!"::" (segs.map fun s => [.id s])
  | .ptr t => q!"* mut" ++ t.toks P
  | .qualified (.ptr t) q =>
    if q.isConst then q!"* const" ++ t.toks P else q!"* mut" ++ t.toks P
  | .qualified t _ => t.toks P

/-- The Rust type named by a suffix of the built-in limits (/repo/src/ast/var.rs:85-89). -/
def limitName (id : Str) : Option Str :=
  if id = c!"__SCHAR_MAX__" then some c!"c_schar"
  else if id = c!"__SHRT_MAX__" then some c!"c_short"
  else if id = c!"__INT_MAX__" then some c!"c_int"
  else if id = c!"__LONG_MAX__" then some c!"c_long"
  else if id = c!"__LONG_LONG_MAX__" then some c!"c_longlong"
  else none

/-- `file!()` (/repo/src/ast/var.rs:77-80). -/
def fileToks (P : PCtx) : List RTok := prefixToks P.C.traitPrefix ++ q!"file ! ( )"

/-- /repo/src/ast/var.rs:67-101, `Var::to_tokens`. -/
def varToks (P : PCtx) (name : IdentExpr) : List RTok :=
  match name with
  | .plain id =>
    if id = c!"__LINE__" then
      prefixToks P.C.traitPrefix ++ q!"line ! ( ) as" ++ prefixToks P.C.ffiPrefix ++ q!"c_uint"
    else if id = c!"__FILE__" then
      charPtrToks P (prefixToks P.C.traitPrefix ++ q!"concat ! (" ++ fileToks P ++ q!"," ++ [.char '\x00'] ++ q!")")
    else match limitName id with
    | some t => prefixToks P.C.ffiPrefix ++ [.id t] ++ q!":: MAX"
    | none =>
      match P.C.resolveEnumVariant id with
      | some (_, e) => e
      | none => [.id id]
  | name => name.toks P

/-- /repo/src/ast/literal/char.rs:148-190, `LitChar::to_tokens`. -/
def LitChar.toks : LitChar → List RTok
  | .ordinary c => match charOfNat c with | some c => [.char c] | none => [.int c c!"u8"]
  | .utf8 c => match charOfNat c with | some c => [.char c] | none => [.int c c!"u8"]
  | .utf16 c => match charOfNat c with | some c => [.char c] | none => [.int c c!"u16"]
  | .utf32 c => match charOfNat c with | some c => [.char c] | none => [.int c c!"u32"]
  | .wide c => match charOfNat c with | some c => [.char c] | none => [.int c c!"u32"]

/-- `char::encode_utf16` of a string, with the terminating zero
(/repo/src/ast/literal/string.rs:442). -/
def utf16Words (s : Str) : List Nat :=
  (s.flatMap fun c =>
    if c.toNat < 65536 then [c.toNat]
    else [55296 + (c.toNat - 65536) / 1024, 56320 + (c.toNat - 65536) % 1024]) ++ [0]

/-- The Rust type for `wchar_t` (/repo/src/ast/literal/string.rs:485-489): `unwrap` panics when
the type is not supported. -/
def wcharToks (P : PCtx) : List RTok :=
  match P.C.resolveTy c!"wchar_t" with
  | some t =>
    match Ty.fromRust P.C.ffiPrefix t with
    | .ok t => t.toks P
    | .error _ => [.bad]
  | none => q!"wchar_t"

/-- `[#(#xs),*]` after a reference (/repo/src/ast/literal/string.rs:445). -/
def arrayToks (xs : List (List RTok)) : List RTok := q!"& [" ++ sepToks q!"," xs ++ q!"]"

/-- `&[ty; n]` (/repo/src/ast/literal/string.rs:446). -/
def arrayTy (ty : List RTok) (n : Nat) : List RTok := q!"& [" ++ ty ++ q!";" ++ [.int n []] ++ q!"]"

/-- A block defining a constant and returning a pointer to it
(/repo/src/ast/literal/string.rs:430-438). -/
def constPtrToks (name : Str) (ty val : List RTok) : List RTok :=
  q!"{ const" ++ [.id name] ++ q!":" ++ ty ++ q!"=" ++ val ++ q!";" ++ [.id name] ++ q!". as_ptr ( ) }"

/-- /repo/src/ast/literal/string.rs:362-508, `LitString::to_token_stream`: type and value. -/
def LitString.toks (P : PCtx) (asArray : Bool) : LitString → List RTok × List RTok
  | .ordinary bs =>
    let bytes := bs ++ [0]
    let ty := staticRef P.L (q!"[ u8 ;" ++ [.int bytes.length []] ++ q!"]")
    if asArray then
      if P.L.cstr && !bs.contains 0 then
        let cstr := (match P.C.traitPrefix with | some p => p.toks ++ q!":: ffi ::" | none => []) ++ q!"CStr"
        (q!"&" ++ cstr, q!"{ # [ allow ( unsafe_code ) ] unsafe {" ++ cstr
          ++ q!":: from_bytes_with_nul_unchecked (" ++ [.bytes bytes] ++ q!") } }")
      else (ty, [.bytes bytes])
    else
      let pty := q!"* const" ++ prefixToks P.C.ffiPrefix ++ q!"c_char"
      (pty, q!"{ const BYTES :" ++ ty ++ q!"=" ++ [.bytes bytes] ++ q!"; BYTES . as_ptr ( ) as" ++ pty ++ q!"}")
  | .utf8 s =>
    let bytes := utf8EncStr s ++ [0]
    let ty := arrayTy q!"u8" bytes.length
    if asArray then (ty, [.bytes bytes])
    else (q!"* const u8", constPtrToks c!"BYTES" ty [.bytes bytes])
  | .utf16 s =>
    let ws := utf16Words s
    let val := arrayToks (ws.map fun (w : Nat) => [RTok.int w c!"u16"])
    let ty := arrayTy q!"u16" ws.length
    if asArray then (ty, val) else (q!"* const u16", constPtrToks c!"WORDS" ty val)
  | .utf32 s =>
    let ws := s.map Char.toNat ++ [0]
    let val := arrayToks (ws.map fun (w : Nat) => [RTok.int w c!"u32"])
    let ty := arrayTy q!"u32" ws.length
    if asArray then (ty, val) else (q!"* const u32", constPtrToks c!"DWORDS" ty val)
  | .wide ws =>
    let ws := ws ++ [0]
    let wty := wcharToks P
    let val := arrayToks (ws.map fun (w : Nat) => [RTok.int w []] ++ q!"as" ++ wty)
    let ty := arrayTy wty ws.length
    if asArray then (ty, val) else (q!"* const" ++ wty, constPtrToks c!"WCHARS" ty val)

/-- /repo/src/ast/literal.rs:92-102, `Lit::to_tokens`. -/
def Lit.toks (P : PCtx) : Lit → List RTok
  | .char c => c.toks
  | .string s => (s.toks P false).2
  | .float f => [.float f]
  | .int i => i.toks

/-- /repo/src/ast/stringify.rs:67-92, `Stringify::to_token_stream_inner`. -/
def stringifyInner (P : PCtx) (name : IdentExpr) : List RTok :=
  match name with
  | .arg i =>
    prefixToks P.C.traitPrefix ++ q!"stringify ! ( $" ++
      (match P.L.argNames[i]? with | some n => [.id n] | none => [.bad]) ++ q!")"
  | .plain id =>
    if id = c!"__LINE__" then
      prefixToks P.C.traitPrefix ++ q!"stringify ! (" ++ prefixToks P.C.traitPrefix ++ q!"line ! ( ) )"
    else if id = c!"__FILE__" then
      prefixToks P.C.traitPrefix ++ q!"format ! (" ++ [.str c!"{:?}"] ++ q!"," ++ fileToks P ++ q!")"
    else prefixToks P.C.traitPrefix ++ q!"stringify ! ( )"
  | .concat _ => prefixToks P.C.traitPrefix ++ q!"stringify ! ( )"

/-- /repo/src/ast/binary_expr.rs:11-15, `Associativity`. -/
inductive Assoc
  | none | left | right
  deriving DecidableEq, Repr

/-- /repo/src/ast/binary_expr.rs:83-110, `BinaryOp::precedence`. -/
def BinOp.prec : BinOp → Nat × Assoc
  | .memberAccess => (1, .left)
  | .mul | .div | .rem => (5, .left)
  | .add | .sub => (6, .left)
  | .shl | .shr => (7, .left)
  | .bitAnd => (8, .left)
  | .bitXor => (9, .left)
  | .bitOr => (10, .left)
  | .eq | .neq | .lt | .gt | .lte | .gte => (11, .none)
  | .and => (12, .left)
  | .or => (13, .left)
  | _ => (14, .right)

/-- /repo/src/ast/unary_expr.rs:34-42, `UnaryOp::precedence`. -/
def UnOp.prec : UnOp → Nat
  | .postInc | .postDec => 1
  | .inc | .dec | .plus | .minus | .not | .comp | .deref => 2
  | .addrOf => 0

/-- /repo/src/ast/expr.rs:33-44, `Expr::precedence` (the number). -/
def Expr.prec : Expr → Nat
  | .lit _ | .var _ => 0
  | .call _ _ => 1
  | .stringify _ | .concatStr _ => 3
  | .cast _ _ => 3
  | .un op _ => op.prec
  | .bin _ op _ => op.prec.1
  | .ternary _ _ _ => 0
  | .sizeOf _ => 3

/-- /repo/src/ast/binary_expr.rs:131-164, `BinaryOp::to_tokens`. -/
def BinOp.text : BinOp → Str
  | .mul => c!"*" | .div => c!"/" | .rem => c!"%" | .add => c!"+" | .sub => c!"-"
  | .shl => c!"<<" | .shr => c!">>" | .lt => c!"<" | .lte => c!"<=" | .gt => c!">" | .gte => c!">="
  | .eq => c!"==" | .neq => c!"!=" | .bitAnd => c!"&" | .bitXor => c!"^" | .bitOr => c!"|"
  | .and => c!"&&" | .or => c!"||" | .assign => c!"=" | .addAssign => c!"+=" | .subAssign => c!"-="
  | .mulAssign => c!"*=" | .divAssign => c!"/=" | .remAssign => c!"%=" | .shlAssign => c!"<<="
  | .shrAssign => c!">>=" | .bitAndAssign => c!"&=" | .bitXorAssign => c!"^=" | .bitOrAssign => c!"|="
  | .memberAccess => c!"."

/-- The pattern `*(volatile T *)…` (/repo/src/ast/binary_expr.rs:315-317). -/
def isVolatileDeref : Expr → Bool
  | .un .deref (.cast (.ptr (.qualified _ q)) _) => q.isVolatile
  | _ => false

/-- `(#x)` (/repo/src/ast/binary_expr.rs:343). -/
def parenToks (x : List RTok) : List RTok := q!"(" ++ x ++ q!")"

/-- `(#x)` when asked for (/repo/src/ast/binary_expr.rs:342-347). -/
def parenIf (b : Bool) (x : List RTok) : List RTok := if b then parenToks x else x

/-- The block writing through a volatile pointer (/repo/src/ast/binary_expr.rs:328-334). -/
def volatileBlock (P : PCtx) (ptr value written : List RTok) : List RTok :=
  q!"{ let value =" ++ value ++ q!";" ++ prefixToks P.C.traitPrefix ++ q!"ptr :: write_volatile (" ++ ptr
    ++ q!"," ++ written ++ q!") ; value }"

/-- `ptr::read_volatile(#ptr)`
(/repo/src/ast/unary_expr.rs:118; /repo/src/ast/binary_expr.rs:324). -/
def readVolatile (P : PCtx) (ptr : List RTok) : List RTok :=
  prefixToks P.C.traitPrefix ++ q!"ptr :: read_volatile (" ++ ptr ++ q!")"

/-- `*{ #x = #x.add(1); … }` (/repo/src/ast/unary_expr.rs:244-247). -/
def derefStep (m : Str) (x : List RTok) : List RTok :=
  x ++ q!"=" ++ x ++ q!"." ++ [.id m] ++ q!"(" ++ [.int 1 []] ++ q!") ;"

/-- The first of the token lists of the children
(/repo/src/ast/binary_expr.rs:288-290, where the children are printed in place). -/
def kid0 : List (List RTok) → List RTok
  | x :: _ => x
  | [] => []

/-- The second of the token lists of the children (/repo/src/ast/binary_expr.rs:288-290). -/
def kid1 : List (List RTok) → List RTok
  | _ :: x :: _ => x
  | _ => []

/-- Dereferencing (/repo/src/ast/unary_expr.rs:214-255). -/
def derefToks (P : PCtx) (x : Expr) (raw : List RTok) (kids : List (List RTok)) : List RTok :=
  let plain := q!"*" ++ parenIf (decide (x.prec > 2)) raw
  match x with
  | .cast (.ptr (.qualified _ q)) _ => if q.isVolatile then readVolatile P raw else plain
  | .bin l .add _ =>
    q!"*" ++ parenIf (decide (l.prec > 1)) (kid0 kids) ++ q!". add (" ++ kid1 kids ++ q!")"
  | .bin l .sub _ =>
    q!"*" ++ parenIf (decide (l.prec > 1)) (kid0 kids) ++ q!". sub (" ++ kid1 kids ++ q!")"
  | .un .inc _ => q!"* {" ++ derefStep c!"add" (kid0 kids) ++ kid0 kids ++ q!"}"
  | .un .dec _ => q!"* {" ++ derefStep c!"sub" (kid0 kids) ++ kid0 kids ++ q!"}"
  | .un .postInc _ => q!"* { let prev =" ++ kid0 kids ++ q!";" ++ derefStep c!"add" (kid0 kids) ++ q!"prev }"
  | .un .postDec _ => q!"* { let prev =" ++ kid0 kids ++ q!";" ++ derefStep c!"sub" (kid0 kids) ++ q!"prev }"
  | _ => plain

/-- /repo/src/ast/unary_expr.rs:97-261, `UnaryExpr::to_token_stream`, from the tokens of the
operand and of the operand's children. -/
def unaryToks (P : PCtx) (op : UnOp) (x : Expr) (raw : List RTok) (kids : List (List RTok)) : List RTok :=
  let paren := parenIf (decide (x.prec > op.prec)) raw
  match op with
  | .inc =>
    if isVolatileDeref x then
      volatileBlock P (kid0 kids) (readVolatile P (kid0 kids) ++ q!"+" ++ [.int 1 []]) q!"value"
    else q!"{" ++ raw ++ q!"+=" ++ [.int 1 []] ++ q!";" ++ raw ++ q!"}"
  | .dec =>
    if isVolatileDeref x then
      volatileBlock P (kid0 kids) (readVolatile P (kid0 kids) ++ q!"-" ++ [.int 1 []]) q!"value"
    else q!"{" ++ raw ++ q!"-=" ++ [.int 1 []] ++ q!";" ++ raw ++ q!"}"
  | .postInc =>
    if isVolatileDeref x then
      volatileBlock P (kid0 kids) (readVolatile P (kid0 kids)) (q!"value +" ++ [.int 1 []])
    else q!"{ let prev =" ++ raw ++ q!";" ++ raw ++ q!"+=" ++ [.int 1 []] ++ q!"; prev }"
  | .postDec =>
    if isVolatileDeref x then
      volatileBlock P (kid0 kids) (readVolatile P (kid0 kids)) (q!"value -" ++ [.int 1 []])
    else q!"{ let prev =" ++ raw ++ q!";" ++ raw ++ q!"-=" ++ [.int 1 []] ++ q!"; prev }"
  | .not | .comp => q!"!" ++ paren
  | .plus => q!"+" ++ paren
  | .minus => q!"-" ++ paren
  | .deref => derefToks P x raw kids
  | .addrOf => prefixToks P.C.traitPrefix ++ q!"ptr :: addr_of_mut ! (" ++ raw ++ q!")"

/-- The assignments printed as blocks (/repo/src/ast/binary_expr.rs:309-314). -/
def BinOp.isBlockAssign : BinOp → Bool
  | .assign | .addAssign | .subAssign | .bitAndAssign | .bitXorAssign | .bitOrAssign => true
  | _ => false

/-- `Expr::Cast(..) | Expr::SizeOf(..)` (/repo/src/ast/binary_expr.rs:304). -/
def Expr.isCastLike : Expr → Bool
  | .cast _ _ | .sizeOf _ => true
  | _ => false

/-- Parentheses around the left operand (/repo/src/ast/binary_expr.rs:296-306). -/
def lhsParens (op : BinOp) (l : Expr) : Bool :=
  (match op.prec with
  | (p, .none) => decide (l.prec ≥ p)
  | (p, .left) => decide (l.prec > p)
  | (p, .right) => decide (l.prec ≤ p))
  || (l.isCastLike && decide (op = .shl))

/-- Parentheses around the right operand (/repo/src/ast/binary_expr.rs:296-300). -/
def rhsParens (op : BinOp) (r : Expr) : Bool :=
  match op.prec with
  | (p, .none) => decide (r.prec ≥ p)
  | (p, .left) => decide (r.prec ≥ p)
  | (p, .right) => decide (r.prec < p)

/-- /repo/src/ast/binary_expr.rs:287-352, `BinaryExpr::to_token_stream`. -/
def binaryToks (P : PCtx) (l : Expr) (op : BinOp) (r : Expr) (lt rt : List RTok)
    (lkids : List (List RTok)) : List RTok :=
  if op.isBlockAssign then
    if isVolatileDeref l then
      volatileBlock P (kid0 lkids)
        (if op = .assign then rt else readVolatile P (kid0 lkids) ++ q!"+" ++ rt) q!"value"
    else q!"{" ++ lt ++ [.punct op.text] ++ rt ++ q!";" ++ lt ++ q!"}"
  else parenIf (lhsParens op l) lt ++ [.punct op.text] ++ parenIf (rhsParens op r) rt

/-- The literal emitted for a cast integer (/repo/src/ast/cast.rs:62-82). -/
def castLit (v : Int) : List RTok :=
  if v < -9223372036854775808 then [.int v c!"i128"]
  else if v < -2147483648 then [.int v c!"i64"]
  else if v < -32768 then [.int v c!"i32"]
  else if v < -128 then [.int v c!"i16"]
  else if v < 0 then [.int v c!"i8"]
  else if v ≤ 255 then [.int v c!"u8"]
  else if v ≤ 65535 then [.int v c!"u16"]
  else if v ≤ 4294967295 then [.int v c!"u32"]
  else if v ≤ 18446744073709551615 then [.int v c!"u64"]
  else [.int v c!"i128"]

/-- The literal `0` (/repo/src/ast/cast.rs:38). -/
def Expr.isZeroLit : Expr → Bool
  | .lit (.int i) => decide (i.value = 0)
  | _ => false

/-- A `const` pointer type (/repo/src/ast/cast.rs:38-39). -/
def Ty.isConstPtr : Ty → Bool
  | .qualified (.ptr _) q => q.isConst
  | _ => false

/-- A pointer without qualifier (/repo/src/ast/cast.rs:44). -/
def Ty.isPlainPtr : Ty → Bool
  | .ptr _ => true
  | _ => false

/-- The operand of a cast (/repo/src/ast/cast.rs:56-93). -/
def castOperand (x : Expr) (raw : List RTok) : List RTok :=
  match x with
  | .lit (.int i) => castLit i.value.toInt
  | x => parenIf (decide (x.prec > 3)) raw

/-- /repo/src/ast/cast.rs:36-100, `Cast::to_tokens`. -/
def castToks (P : PCtx) (ty : Ty) (x : Expr) (raw : List RTok) : List RTok :=
  if ty.isConstPtr && x.isZeroLit then prefixToks P.C.traitPrefix ++ q!"ptr :: null ( )"
  else if ty.isPlainPtr && x.isZeroLit then prefixToks P.C.traitPrefix ++ q!"ptr :: null_mut ( )"
  else if ty.isVoid then q!"{ let _ =" ++ raw ++ q!"; }"
  else castOperand x raw ++ q!"as" ++ ty.toks P

/-- `__builtin_offsetof` with two arguments (/repo/src/ast/function_call.rs:86). -/
def isOffsetof (name : IdentExpr) (args : List Expr) : Bool :=
  match name with
  | .plain id => decide (id = c!"__builtin_offsetof") && decide (args.length = 2)
  | _ => false

/-- The cases in which `.into()` is not called on an argument
(/repo/src/ast/function_call.rs:93-114). -/
def noInto (P : PCtx) : Expr → Bool
  | .cast ty x => ty.isPtr && x.isZeroLit
  | .lit _ => true
  | .var (.arg i) => decide (P.L.argNames[i]? = some c!"...") || !P.asMacro
  | _ => false

/-- `ctx.arg_name(i)` of an argument of a call panics for an index out of range
(/repo/src/ast/function_call.rs:105). -/
def argNameToks (P : PCtx) : Expr → List RTok
  | .var (.arg i) => if (P.L.argNames[i]?).isNone then [.bad] else []
  | _ => []

/-- One argument of a call (/repo/src/ast/function_call.rs:93-123). -/
def callArgToks (P : PCtx) (into : Bool) (a : Expr) (raw : List RTok) : List RTok :=
  argNameToks P a ++
  (if noInto P a then raw
  else if into then parenToks raw ++ q!". into ( )"
  else raw)

/-- /repo/src/ast/function_call.rs:84-128, `FunctionCall::to_tokens`. -/
def callToks (P : PCtx) (name : IdentExpr) (args : List Expr) (raw : List (List RTok)) : List RTok :=
  let off := isOffsetof name args
  (if off then prefixToks P.C.traitPrefix ++ q!"mem :: offsetof !" else name.toks P)
    ++ q!"(" ++ sepToks q!"," (List.zipWith (callArgToks P (!off)) args raw) ++ q!")"

/-- One part of a `concat!` (/repo/src/ast/expr.rs:673-680). -/
def concatPartToks (P : PCtx) (e : Expr) (raw : List RTok) : List RTok :=
  match e with
  | .var (.plain id) => if id = c!"__FILE__" then fileToks P else raw
  | .stringify name => stringifyInner P name
  | _ => raw

mutual
/-- /repo/src/ast/expr.rs:659-700, `Expr::to_tokens`. -/
def Expr.toks (P : PCtx) : Expr → List RTok
  | .cast ty x => castToks P ty x (x.toks P)
  | .var name => varToks P name
  | .call name args => callToks P name args (Expr.toksL P args)
  | .lit l => l.toks P
  | .stringify name =>
    charPtrToks P (prefixToks P.C.traitPrefix ++ q!"concat ! (" ++ stringifyInner P name ++ q!","
      ++ [.char '\x00'] ++ q!")")
  | .concatStr parts =>
    charPtrToks P (prefixToks P.C.traitPrefix ++ q!"concat ! ("
      ++ sepToks q!"," (List.zipWith (concatPartToks P) parts (Expr.toksL P parts)) ++ q!","
      ++ [.char '\x00'] ++ q!")")
  | .un op x => unaryToks P op x (x.toks P) (Expr.kids P x)
  | .bin l op r => binaryToks P l op r (l.toks P) (r.toks P) (Expr.kids P l)
  | .ternary c t f => q!"if" ++ c.toks P ++ q!"{" ++ t.toks P ++ q!"} else {" ++ f.toks P ++ q!"}"
  | .sizeOf ty =>
    prefixToks P.C.traitPrefix ++ q!"mem :: size_of :: <" ++ ty.toks P ++ q!"> ( ) as"
      ++ (BuiltInType.sizeT.toRust P.C).toks
/-- The tokens of a list of expressions (/repo/src/ast/function_call.rs:93). -/
def Expr.toksL (P : PCtx) : List Expr → List (List RTok)
  | [] => []
  | e :: es => e.toks P :: Expr.toksL P es
/-- The tokens of the operands of an operator, which some parents print by themselves
(/repo/src/ast/unary_expr.rs:114, 223-224, 241). -/
def Expr.kids (P : PCtx) : Expr → List (List RTok)
  | .un _ x => [x.toks P]
  | .bin l _ r => [l.toks P, r.toks P]
  | _ => []
end

/-! ## Statements -/

/-- `BTreeSet::insert` on strings: sorted, without duplicates (/repo/src/ast/asm.rs:267). -/
def insertStr (x : Str) : List Str → List Str
  | [] => [x]
  | y :: ys => if x = y then y :: ys else if x < y then x :: y :: ys else y :: insertStr x ys

/-- /repo/src/ast/asm.rs:27-32, `Dir::to_tokens`. -/
def Dir.toks : Dir → List RTok
  | .out => q!"out"
  | .inOut => q!"inout"

/-- /repo/src/ast/asm.rs:45-56, `RegConstraint::to_tokens`. -/
def RegConstraint.toks : RegConstraint → List RTok
  | .reg => q!"reg"
  | .regAbcd => q!"reg_abcd"
  | .regByte => q!"reg_byte"
  | .freg => q!"freg"
  | .digit n => [.int n []]

/-- Whether `pat` occurs in the text (`str::contains`) (/repo/src/ast/asm.rs:222-226). -/
def containsStr (pat : Str) : Str → Bool
  | [] => pat.isEmpty
  | c :: cs => pat.isPrefixOf (c :: cs) || containsStr pat cs

/-- /repo/src/ast/asm.rs:217-228, `Asm::is_att_syntax`. -/
def Asm.isAtt (a : Asm) : Bool :=
  a.template.any fun s => containsStr c!"({" s || s.contains '%' || s.contains '$'

/-- The loop over matching constraints (/repo/src/ast/asm.rs:243-250): the outputs and inputs
afterwards; `none` when `inputs.remove` panics. -/
def matchConstraints : List (RegConstraint × Expr) → List (Dir × RegConstraint × Expr) →
    List (RegConstraint × Expr) → Option (List (Dir × RegConstraint × Expr) × List (RegConstraint × Expr))
  | [], outs, ins => some (outs, ins)
  | (.digit d, _) :: rest, outs, ins =>
    match outs[d]? with
    | none => matchConstraints rest outs ins
    | some (_, r, e) =>
      if d < ins.length then matchConstraints rest (outs.set d (.inOut, r, e)) (ins.eraseIdx d)
      else none
  | _ :: rest, outs, ins => matchConstraints rest outs ins

/-- `#(#xs,)*` (/repo/src/ast/asm.rs:298-301). -/
def commaToks (xs : List (List RTok)) : List RTok := xs.flatMap (· ++ q!",")

/-- /repo/src/ast/asm.rs:237-306, `Asm::to_tokens`. -/
def Asm.toks (P : PCtx) (a : Asm) : List RTok :=
  match matchConstraints a.inputs a.outputs a.inputs with
  | none => [.bad]
  | some (outs, ins) =>
    let clob := a.clobbers.foldl (fun s x => insertStr x s) []
    let opts := if a.isAtt then [q!"att_syntax"] else []
    let opts := opts ++ (if a.isGlobal then [] else
      (if clob.contains c!"memory" then [] else [q!"nomem"])
        ++ (if clob.contains c!"cc" then [] else [q!"preserves_flags"]))
    let clob := if a.isGlobal then clob else clob.filter fun s => s ≠ c!"memory" ∧ s ≠ c!"cc"
    prefixToks P.C.traitPrefix ++ q!"arch ::" ++ (if a.isGlobal then q!"global_asm !" else q!"asm !")
      ++ q!"(" ++ commaToks (a.template.map fun t => [.str t])
      ++ commaToks (outs.map fun (d, r, e) => d.toks ++ q!"(" ++ r.toks ++ q!")" ++ e.toks P)
      ++ commaToks (ins.map fun (r, e) => q!"in (" ++ r.toks ++ q!")" ++ e.toks P)
      ++ commaToks (clob.map fun c => q!"out (" ++ [.str c] ++ q!") _")
      ++ (if a.isGlobal || clob.isEmpty then [] else q!"clobber_abi (" ++ [.str c!"C"] ++ q!") ,")
      ++ (if opts.isEmpty then [] else q!"options (" ++ sepToks q!"," opts ++ q!") ,") ++ q!")"

/-- /repo/src/ast/function_decl.rs:61-79, `FunctionDecl::to_tokens`. -/
def FunctionDecl.toks (P : PCtx) (d : FunctionDecl) : List RTok :=
  q!"extern" ++ [.str c!"C"] ++ q!"{ pub fn" ++ d.name.toks P ++ q!"("
    ++ sepToks q!"," (d.args.map fun (t, n) => n.toks P ++ q!":" ++ t.toks P) ++ q!") ->" ++ d.retTy.toks P ++ q!"; }"

/-- /repo/src/ast/var_decl.rs:48-58, `VarDecl::to_tokens`. -/
def VarDecl.toks (P : PCtx) (d : VarDecl) : List RTok :=
  (if d.isStatic then q!"static mut" else q!"let mut") ++ d.name.toks P ++ q!":" ++ d.ty.toks P ++ q!"=" ++ d.rhs.toks P

mutual
/-- /repo/src/ast/statement.rs:146-199, `Statement::to_tokens`. -/
def Stmt.toks (P : PCtx) : Stmt → List RTok
  | .asm a => a.toks P ++ q!";"
  | .expr e => e.toks P ++ q!";"
  | .fnDecl d => d.toks P
  | .varDecl d => d.toks P ++ q!";"
  | .block ss => q!"{" ++ (Stmt.toksL P ss).flatten ++ q!"}"
  | .ite c t f =>
    q!"if" ++ c.toks P ++ q!"{" ++ (Stmt.toksL P t).flatten ++ q!"}"
      ++ (match f with
        | [] => []
        | f => q!"else {" ++ sepToks q!";" (Stmt.toksL P f) ++ q!"}")
  | .doWhile b c =>
    q!"loop {" ++ (Stmt.toksL P b).flatten ++ q!"if" ++ c.toks P ++ q!"{ continue } break }"
/-- The tokens of the statements of a block (/repo/src/ast/statement.rs:162). -/
def Stmt.toksL (P : PCtx) : List Stmt → List (List RTok)
  | [] => []
  | s :: ss => s.toks P :: Stmt.toksL P ss
end

/-- The tokens of a macro body (/repo/src/fn_macro.rs:182-186). -/
def MacroBody.toks (P : PCtx) : MacroBody → List RTok
  | .stmt s => s.toks P
  | .expr e => e.toks P

/-! ## `generate` -/

/-- Whether building these tokens panics: an index out of range, or `Ident::new` with something
that is not an identifier (/repo/src/fn_macro.rs:180,197,211,230; /repo/src/context.rs:54-60). -/
def RTok.ok (E : Env) : RTok → Bool
  | .bad => false
  | .id s => isIdentifier E s
  | _ => true

/-- All tokens can be built (/repo/src/fn_macro.rs:180,197,211,230). -/
def toksOk (E : Env) (ts : List RTok) : Bool := ts.all (RTok.ok E)

/-- The local context of a variable-like macro (/repo/src/var_macro.rs:54-73). -/
def varLoc (C : Ctx) : Loc := ⟨[], true, C.elision, C.cstr⟩

/-- The initial state of the local context (/repo/src/context.rs:36-46). -/
def LState.init : LState := ⟨[], false⟩

/-- /repo/src/var_macro.rs:50-97, `VarMacro::generate`: the tokens of the value and of its type.
The first argument bounds the depth of calls. -/
def VarMacro.generate (n : Nat) (C : Ctx) (m : VarMacro) : CgRes (List RTok × Option (List RTok)) :=
  match m.body with
  | .stmt _ => .error (.err .nonExpressionVarMacro)
  | .expr e =>
    match e.finish C (varLoc C) n .init with
    | ⟨_, _, .error x⟩ => .error x
    | ⟨e, st, .ok t⟩ =>
      let P : PCtx := ⟨C, varLoc C, st.exportAsMacro⟩
      let out : List RTok × Option (List RTok) := match e with
        | .lit (.string s) => ((s.toks P true).2, some (s.toks P true).1)
        | e => (e.toks P, t.map (·.toks P))
      if !(toksOk C.env out.1 && toksOk C.env (out.2.getD [])) then .error .panic
      else if st.exportAsMacro then .error (.err .nonConstantVarMacro)
      else .ok out

/-- The declared types of the arguments (/repo/src/fn_macro.rs:155-168). -/
def argTypes (C : Ctx) (name : Str) : List Str → CgRes (List ArgTy)
  | [] => .ok []
  | a :: as =>
    match (match C.macroArgTy name a with
      | some t => match Ty.fromRust C.ffiPrefix t with
        | .ok t => Except.ok (ArgTy.known t)
        | .error e => .error e
      | none => .ok .unknown : CgRes ArgTy) with
    | .error e => .error e
    | .ok t => match argTypes C name as with
      | .error e => .error e
      | .ok ts => .ok (t :: ts)

/-- `matches!(*ty, MacroArgType::Known(_))` (/repo/src/fn_macro.rs:177). -/
def ArgTy.isKnown : ArgTy → Bool
  | .known _ => true
  | _ => false

/-- /repo/src/context.rs:50-52, `LocalContext::is_variadic`. -/
def namesVariadic (names : List Str) : Bool := decide (names.getLast? = some c!"...")

/-- The fragment specifier of a macro parameter (/repo/src/fn_macro.rs:200-206). -/
def ArgTy.fragment : ArgTy → Str
  | .ident => c!"ident"
  | .expr => c!"expr"
  | .ty => c!"ty"
  | .tt => c!"tt"
  | _ => c!"expr"

/-- Generated code for a function-like macro: a `macro_rules!` macro or a function
(/repo/src/fn_macro.rs:213-222,250-257). -/
inductive GenFn
  | macro (name : Str) (params : List (List RTok)) (body : List RTok)
  | fn (name : Str) (args : List (List RTok)) (ret : Option (List RTok)) (body : List RTok)
  deriving DecidableEq, Repr

/-- The parameters of a generated macro (/repo/src/fn_macro.rs:189-209). -/
def macroParams : List Str → List ArgTy → List (List RTok)
  | a :: as, t :: ts =>
    (if a = c!"..." then q!"$ ( $ __VA_ARGS__ : expr ) , *" else q!"$" ++ [.id a] ++ q!":" ++ [.id t.fragment])
      :: macroParams as ts
  | _, _ => []

/-- The parameters of a generated function (/repo/src/fn_macro.rs:224-237). -/
def fnParams (P : PCtx) : List Str → List ArgTy → List (List RTok)
  | a :: as, .known t :: ts => ([.id a] ++ q!":" ++ t.toks P) :: fnParams P as ts
  | _ :: as, _ :: ts => [.bad] :: fnParams P as ts
  | _, _ => []

/-- The generated items (/repo/src/fn_macro.rs:213-222, 250-257). -/
def GenFn.toks : GenFn → List RTok
  | .macro name params body =>
    q!"# [ doc ( hidden ) ] # [ macro_export ] macro_rules !" ++ [.id (c!"__cmacro__" ++ name)] ++ q!"{ ("
      ++ sepToks q!"," params ++ q!") => {" ++ body ++ q!"} ; } pub use" ++ [.id (c!"__cmacro__" ++ name)]
      ++ q!"as" ++ [.id name] ++ q!";"
  | .fn name args ret body =>
    q!"# [ allow ( non_snake_case , unused_mut , unsafe_code ) ] # [ inline ( always ) ] pub unsafe extern"
      ++ [.str c!"C"] ++ q!"fn" ++ [.id name] ++ q!"(" ++ sepToks q!"," (args.map (q!"mut" ++ ·)) ++ q!")"
      ++ (match ret with | some t => q!"->" ++ t | none => []) ++ q!"{" ++ body
      ++ (if ret.isNone then q!";" else []) ++ q!"}"

/-- The local context of a function-like macro (/repo/src/fn_macro.rs:169-171,
/repo/src/context.rs:36-46). -/
def fnLoc (args : List Str) : Loc := ⟨args, false, true, true⟩

/-- The return type of a generated function (/repo/src/fn_macro.rs:239-246). -/
def retToks (P : PCtx) : Option Ty → Option (List RTok)
  | none => none
  | some t => if t.isVoid then none else some (t.toks P)

/-- /repo/src/fn_macro.rs:149-261, `FnMacro::generate`.  The first argument bounds the depth of
calls. -/
def FnMacro.generate (n : Nat) (C : Ctx) (m : FnMacro) : CgRes GenFn :=
  match argTypes C m.name m.args with
  | .error e => .error e
  | .ok tys =>
    match m.body.finish C (Expr.finish C (fnLoc m.args) n) ⟨tys, false⟩ with
    | ⟨_, _, .error e⟩ => .error e
    | ⟨body, st, .ok ret⟩ =>
      let exp := st.exportAsMacro || (C.function m.name).isSome || namesVariadic m.args
        || !st.argTypes.all ArgTy.isKnown || ret.isNone
      let P : PCtx := ⟨C, fnLoc m.args, exp⟩
      let out : GenFn :=
        if exp then .macro m.name (macroParams m.args st.argTypes) (body.toks P)
        else .fn m.name (fnParams P m.args st.argTypes) (retToks P ret) (body.toks P)
      if toksOk C.env out.toks then .ok out else .error .panic

end CMacro
