import Verif.Model.ParseStmt

/-!
# Code generation: Rust tokens, types and the context

Model of `proc_macro2`/`syn` values used by the code generator, of /repo/src/context.rs, and
of the type conversions in /repo/src/ast/ty.rs.
-/

namespace CMacro

/-- A token of the generated code (`proc_macro2::TokenTree`).  Delimiters and multi-character
operators are single punctuation tokens.  `id` comes from `Ident::new` or from a word inside
`quote!`; `opaque` is a piece of source text supplied by the context; `bad` marks a rendering
step that panics.  A floating point literal stands for whatever
/repo/src/ast/literal/float.rs:121-150 prints for that value. -/
inductive RTok
  | id (s : Str)
  | punct (s : Str)
  | int (v : Int) (suffix : Str)
  | float (f : LitFloat)
  | char (c : Char)
  | bytes (bs : List UInt8)
  | str (s : Str)
  | opaque (s : Str)
  | bad
  deriving DecidableEq, Repr

/-- Notation for the fixed tokens of a `quote!` invocation: `q!"a :: b ( )"` is the list of the
words, identifiers as `RTok.id`, everything else as `RTok.punct`. -/
macro:max "q!" s:str : term => do
  let ws := (s.getString.splitOn " ").filter (· ≠ "")
  let ts ← ws.mapM fun w => do
    let l := Lean.Syntax.mkStrLit w
    let c := w.front
    if c.isAlpha || c == '_' then `(RTok.id c!$l) else `(RTok.punct c!$l)
  `([$(ts.toArray),*])

/-- `syn::Path`, without generic arguments (see `PathKind`) (/repo/src/context.rs:84,88). -/
structure RPath where
  leadingColon : Bool
  segs : List Str
  deriving DecidableEq, Repr

/-- What a `syn::TypePath` has besides the names of its segments: nothing, or a self type (`<T as Trait>::Name`) or generic
arguments; then `text` is the whole type (/repo/src/ast/ty.rs:81-104). -/
inductive PathKind
  | plain
  | rich (qself : Bool) (text : Str)
  deriving DecidableEq, Repr

/-- Whether `qself` is `Some` (/repo/src/ast/ty.rs:83). -/
def PathKind.hasSelf : PathKind → Bool
  | .plain => false
  | .rich q _ => q

/-- `syn::Type` as far as the crate inspects it; `other` is any other kind
(/repo/src/context.rs:92-108; /repo/src/ast/ty.rs:81-153,485). -/
inductive RTy
  | ptr (isMut : Bool) (elem : RTy)
  | unit
  | verbatim (s : Str)
  | path (kind : PathKind) (p : RPath)
  | other (s : Str)
  deriving DecidableEq, Repr

/-- /repo/src/context.rs:114-196, `CodegenContext`.  The Rust target is represented by the three
questions asked about it: is it unknown or a nightly (/repo/src/ast/ty.rs:179), is it unknown
or at least 1.17, is it unknown or at least 1.59 (/repo/src/var_macro.rs:57-73).  `env` are the
Unicode tables; `fIsZero` is the comparison of a floating point value with zero
(/repo/src/ast/expr.rs:544-553). -/
structure Ctx where
  env : Env
  fIsZero : FVal → Bool
  nightly : Bool
  elision : Bool
  cstr : Bool
  ffiPrefix : Option RPath
  traitPrefix : Option RPath
  macroArgTy : Str → Str → Option RTy
  resolveEnumVariant : Str → Option (RTy × List RTok)
  resolveTy : Str → Option RTy
  resolveFieldTy : Str → Str → Option RTy
  function : Str → Option (List RTy × RTy)

/-- The context `()` (/repo/src/context.rs:235). -/
def Ctx.unit (E : Env) : Ctx where
  env := E
  fIsZero := fun _ => false
  nightly := true
  elision := true
  cstr := true
  ffiPrefix := none
  traitPrefix := none
  macroArgTy := fun _ _ => none
  resolveEnumVariant := fun _ => none
  resolveTy := fun _ => none
  resolveFieldTy := fun _ _ => none
  function := fun _ => none

/-- /repo/src/context.rs:5-18, `MacroArgType`. -/
inductive ArgTy
  | ident | expr | ty | tt
  | known (t : Ty)
  | unknown
  deriving DecidableEq, Repr

/-- /repo/src/context.rs:22-30, `LocalContext`: the fields that do not change while a body is
processed. -/
structure Loc where
  argNames : List Str
  isVar : Bool
  elision : Bool
  cstr : Bool

/-- /repo/src/context.rs:22-30, `LocalContext`: the fields that change. -/
structure LState where
  argTypes : List ArgTy
  exportAsMacro : Bool
  deriving DecidableEq, Repr

/-- /repo/src/error.rs:28-39, `CodegenError` (`RecursiveDefinition` is never constructed). -/
inductive CgErr
  | nonExpressionVarMacro
  | nonConstantVarMacro
  | unsupportedExpression (what : Str)
  | unsupportedType (what : Str)
  deriving DecidableEq, Repr

/-- How code generation fails: an error value, a panic, or a call depth beyond the bound
(/repo/src/error.rs:28-39). -/
inductive CgFail
  | err (e : CgErr)
  | panic
  | diverge
  deriving DecidableEq, Repr

/-- Result of a `generate` call (/repo/src/fn_macro.rs:149; /repo/src/var_macro.rs:50). -/
abbrev CgRes (α : Type) := Except CgFail α

/-! ## Types -/

/-- /repo/src/ast/ty.rs:105-148, the table of `BuiltInType::from_rust_ty`. -/
def BuiltInType.ofRustName (id : Str) : Option BuiltInType :=
  if id = c!"f32" then some .float
  else if id = c!"f64" then some .double
  else if id = c!"f128" then some .longDouble
  else if id = c!"bool" then some .bool
  else if id = c!"c_char" then some .char
  else if id = c!"c_schar" then some .sChar
  else if id = c!"c_uchar" then some .uChar
  else if id = c!"u8" then some .char8T
  else if id = c!"u16" then some .char16T
  else if id = c!"u32" then some .char32T
  else if id = c!"c_short" then some .short
  else if id = c!"c_ushort" then some .uShort
  else if id = c!"c_int" then some .int
  else if id = c!"c_uint" then some .uInt
  else if id = c!"c_long" then some .long
  else if id = c!"c_ulong" then some .uLong
  else if id = c!"c_longlong" then some .longLong
  else if id = c!"c_ulonglong" then some .uLongLong
  else if id = c!"c_size_t" then some .sizeT
  else if id = c!"c_ssize_t" then some .sSizeT
  else if id = c!"c_void" then some .void
  else none

/-- /repo/src/ast/ty.rs:86-95, matching the prefix: what is left of the segments. -/
def stripPrefixSegs : List Str → List Str → Option (List Str)
  | [], segs => some segs
  | _ :: _, [] => none
  | p :: ps, s :: segs => if s = p then stripPrefixSegs ps segs else none

/-- /repo/src/ast/ty.rs:81-153, `BuiltInType::from_rust_ty`. -/
def BuiltInType.fromRust (kind : PathKind) (p : RPath) (ffi : Option RPath) : Option BuiltInType :=
  if kind.hasSelf then none else
  let rest := match ffi with
    | none => some p.segs
    | some f => if p.leadingColon = f.leadingColon then stripPrefixSegs f.segs p.segs else none
  match rest with
  | some [id] => BuiltInType.ofRustName id
  | _ => none

/-- The text of a type the crate does not support; only used in error messages
(/repo/src/ast/ty.rs:515). -/
def RTy.text : RTy → Str
  | .other s => s
  | _ => []

/-- /repo/src/ast/ty.rs:485-517, `Type::from_rust_ty`. -/
def Ty.fromRust (ffi : Option RPath) : RTy → CgRes Ty
  | .ptr isMut elem =>
    match Ty.fromRust ffi elem with
    | .ok t => .ok (if isMut then .ptr t else .qualified (.ptr t) .const)
    | .error e => .error e
  | .unit => .ok (.builtIn .void)
  | .verbatim s => .ok (.ident (.plain s) false)
  | .path kind p =>
    match BuiltInType.fromRust kind p ffi with
    | some b => .ok (.builtIn b)
    | none =>
      match p.leadingColon, p.segs with
      | false, [s] => .ok (.ident (.plain s) false)
      | lc, segs => .ok (.path lc segs)
  | .other s => .error (.err (.unsupportedType s))

/-- `#(#ffi_prefix::)*name` parsed as a type (/repo/src/ast/ty.rs:163-187). -/
def RTy.prefixed (pre : Option RPath) (name : Str) : RTy :=
  match pre with
  | none => .path .plain ⟨false, [name]⟩
  | some p => .path .plain ⟨p.leadingColon, p.segs ++ [name]⟩

/-- /repo/src/ast/ty.rs:155-188, `BuiltInType::to_rust_ty`. -/
def BuiltInType.toRust (C : Ctx) : BuiltInType → RTy
  | .float => .prefixed none c!"f32"
  | .double | .longDouble => .prefixed none c!"f64"
  | .bool => .prefixed none c!"bool"
  | .char => .prefixed C.ffiPrefix c!"c_char"
  | .sChar => .prefixed C.ffiPrefix c!"c_schar"
  | .uChar => .prefixed C.ffiPrefix c!"c_uchar"
  | .char8T => .prefixed none c!"u8"
  | .char16T => .prefixed none c!"u16"
  | .char32T => .prefixed none c!"u32"
  | .short => .prefixed C.ffiPrefix c!"c_short"
  | .uShort => .prefixed C.ffiPrefix c!"c_ushort"
  | .int => .prefixed C.ffiPrefix c!"c_int"
  | .uInt => .prefixed C.ffiPrefix c!"c_uint"
  | .long => .prefixed C.ffiPrefix c!"c_long"
  | .uLong => .prefixed C.ffiPrefix c!"c_ulong"
  | .longLong => .prefixed C.ffiPrefix c!"c_longlong"
  | .uLongLong => .prefixed C.ffiPrefix c!"c_ulonglong"
  | .sizeT =>
    match C.resolveTy c!"size_t" with
    | some ty => ty
    | none => if C.nightly then .prefixed C.ffiPrefix c!"c_size_t" else .prefixed none c!"usize"
  | .sSizeT => .prefixed C.ffiPrefix c!"c_ssize_t"
  | .void => .prefixed C.ffiPrefix c!"c_void"

/-- /repo/src/ast/ty.rs:521-551, `Type::to_rust_ty`. -/
def Ty.toRust (C : Ctx) : Ty → Option RTy
  | .builtIn b => some (b.toRust C)
  | .ident (.plain s) _ => some (.path .plain ⟨false, [s]⟩)
  | .ident _ _ => none
  | .path lc segs => some (.path .plain ⟨lc, segs⟩)
  | .ptr t => (t.toRust C).map (.ptr true)
  | .qualified (.ptr t) q => if q.isConst then (t.toRust C).map (.ptr false) else (t.toRust C).map (.ptr true)
  | .qualified t _ => t.toRust C

/-- /repo/src/ast/ty.rs:415-417, `Type::is_void`. -/
def Ty.isVoid : Ty → Bool
  | .builtIn .void => true
  | _ => false

/-- /repo/src/ast/ty.rs:420-426, `Type::is_ptr`. -/
def Ty.isPtr : Ty → Bool
  | .ptr _ => true
  | .qualified t _ => t.isPtr
  | _ => false

/-- /repo/src/ast/ty.rs:553-572, `Type::to_static`: borrowed text becomes owned text. -/
def Ty.toStatic : Ty → Option Ty
  | .builtIn b => some (.builtIn b)
  | .ident (.plain s) b => some (.ident (.plain s) b)
  | .ident _ _ => none
  | .path lc segs => some (.path lc segs)
  | .ptr t => (t.toStatic).map .ptr
  | .qualified t q => (t.toStatic).map (.qualified · q)

/-- `str::replace('*', " * ")` (/repo/src/ast/ty.rs:580). -/
def spaceStars (s : Str) : Str := s.flatMap fun c => if c = '*' then c!" * " else [c]

/-- `str::split_whitespace` (/repo/src/ast/ty.rs:583): the maximal runs without white space. -/
def splitWs (s : Str) : List Str := go [] s
where
  /-- `cur`: the word so far, reversed. -/
  go (cur : Str) : Str → List Str
    | [] => if cur.isEmpty then [] else [cur.reverse]
    | c :: cs => if isWs c then (if cur.isEmpty then go [] cs else cur.reverse :: go [] cs)
      else go (c :: cur) cs

/-- The classification of one word in `Type::from_str` (/repo/src/ast/ty.rs:584-592). -/
def tyWord (E : Env) (t : Str) : Option MacroToken :=
  match identTryFrom E t with
  | some id => some (.ident id)
  | none => (punctTryFrom t).map .punct

/-- All words of `Type::from_str` (/repo/src/ast/ty.rs:582-593). -/
def tyWords (E : Env) : List Str → Option (List MacroToken)
  | [] => some []
  | w :: ws => match tyWord E w, tyWords E ws with
    | some t, some ts => some (t :: ts)
    | _, _ => none

/-- /repo/src/ast/ty.rs:578-600, `Type::from_str`; every error is `UnsupportedType(s)`. -/
def Ty.fromStr (E : Env) (s : Str) : Option Ty :=
  match tyWords E (splitWs (spaceStars s)) with
  | none => none
  | some ts => match parseTy E ts with
    | none => none
    | some (t, _) => t.toStatic

end CMacro
