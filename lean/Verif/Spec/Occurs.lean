import Verif.Model.Print
import Verif.Spec.Leaves

/-!
# How often a name occurs
-/

namespace CMacro.Spec

/-- How often a name occurs in generated code. -/
def wordCount (w : Str) (ts : List RTok) : Nat := ts.countP fun
  | .id x => decide (x = w)
  | _ => false

/-- How often a name, or the parameter of that name, occurs in a body. -/
def leafCount (w : Str) (ps : List Str) (ls : List Leaf) : Nat := ls.countP fun
  | .arg i => decide (ps[i]? = some w)
  | .name x => decide (x = w)
  | _ => false

/-- The words that are written by the code generator itself, and the names that it knows. -/
def ownWords : List Str :=
  [c!"BYTES", c!"WORDS", c!"DWORDS", c!"WCHARS", c!"CStr", c!"MAX", c!"_", c!"add", c!"addr_of_mut", c!"allow", c!"arch", c!"as", c!"as_bytes",
   c!"as_ptr", c!"asm", c!"att_syntax", c!"break", c!"clobber_abi", c!"concat", c!"concat_idents", c!"const", c!"continue", c!"else", c!"extern",
   c!"ffi", c!"file", c!"fn", c!"format", c!"freg", c!"from_bytes_with_nul_unchecked", c!"global_asm", c!"if", c!"in", c!"inout", c!"into",
   c!"let", c!"line", c!"loop", c!"mem", c!"mut", c!"nomem", c!"null", c!"null_mut", c!"offsetof", c!"options", c!"out", c!"preserves_flags",
   c!"prev", c!"ptr", c!"pub", c!"read_volatile", c!"reg", c!"reg_abcd", c!"reg_byte", c!"size_of", c!"static", c!"stringify", c!"sub",
   c!"unsafe", c!"unsafe_code", c!"value", c!"write_volatile",
   c!"f32", c!"f64", c!"bool", c!"u8", c!"u16", c!"u32", c!"usize", c!"c_char", c!"c_schar", c!"c_uchar", c!"c_short", c!"c_ushort", c!"c_int",
   c!"c_uint", c!"c_long", c!"c_ulong", c!"c_longlong", c!"c_ulonglong", c!"c_size_t", c!"c_ssize_t", c!"c_void", c!"wchar_t",
   c!"__VA_ARGS__", c!"...", c!"__LINE__", c!"__FILE__", c!"__SCHAR_MAX__", c!"__SHRT_MAX__", c!"__INT_MAX__", c!"__LONG_MAX__",
   c!"__LONG_LONG_MAX__", c!"__builtin_offsetof"]

/-- The words of a Rust type given by the user of the crate. -/
def rtyWords : RTy → List Str
  | .ptr _ t => rtyWords t
  | .verbatim s => [s]
  | .path _ p => p.segs
  | _ => []

/-- A name that is written by neither the code generator nor the user of the crate. -/
structure OrdinaryWord (C : Ctx) (w : Str) : Prop where
  own : w ∉ ownWords
  notNumber : ∀ n, w ≠ Nat.toDigits 10 n
  types : ∀ id t, C.resolveTy id = some t → w ∉ rtyWords t
  ffi : ∀ p, C.ffiPrefix = some p → w ∉ p.segs
  trait : ∀ p, C.traitPrefix = some p → w ∉ p.segs
  notVariant : C.resolveEnumVariant w = none
  variants : ∀ id t e, C.resolveEnumVariant id = some (t, e) → RTok.id w ∉ e

/-- The operators that change their operand. -/
def changes : UnOp → Bool
  | .inc | .dec | .postInc | .postDec => true
  | _ => false

/-- The assignments whose value is the new value of the left operand. -/
def yields : BinOp → Bool
  | .assign | .addAssign | .subAssign | .bitAndAssign | .bitXorAssign | .bitOrAssign => true
  | _ => false

section
variable (w : Str) (ps : List Str)

/-- A type that does not point to one with this name, and is not itself a known type with this name. -/
def TyOnce : Ty → Prop
  | .builtIn _ => True
  | .ident (.plain id) _ => id ≠ w
  | .ident _ _ => True
  | .path _ segs => w ∉ segs
  | .ptr t => leafCount w ps (tyLeaves t) = 0
  | .qualified t _ => TyOnce t

/-- Only parameters are stringified. -/
def StringOnce : IdentExpr → Prop
  | .arg _ => True
  | n => leafCount w ps (nameLeaves n) = 0

mutual
/-- Nothing with this name is assigned to or incremented, and no pointer type has this name. -/
def ExprOnce : Expr → Prop
  | .var _ => True
  | .call _ as => ExprsOnce as
  | .cast ty e => TyOnce w ps ty ∧ ExprOnce e
  | .lit _ => True
  | .stringify n => StringOnce w ps n
  | .concatStr parts => ExprsOnce parts
  | .sizeOf ty => TyOnce w ps ty
  | .un op e => (changes op = true → leafCount w ps (exprLeaves e) = 0) ∧ ExprOnce e
  | .bin l op r => (yields op = true → leafCount w ps (exprLeaves l) = 0) ∧ ExprOnce l ∧ ExprOnce r
  | .ternary c t f => ExprOnce c ∧ ExprOnce t ∧ ExprOnce f
/-- The same of all expressions of a list. -/
def ExprsOnce : List Expr → Prop
  | [] => True
  | e :: es => ExprOnce e ∧ ExprsOnce es
end

/-- A constraint that is not the number of an output. -/
def plainConstraint : RegConstraint → Prop
  | .digit _ => False
  | _ => True

mutual
/-- The same of statements; no input of an `asm` is the same as an output. -/
def StmtOnce : Stmt → Prop
  | .asm a => (∀ o ∈ a.outputs, ExprOnce w ps o.2.2) ∧ ∀ o ∈ a.inputs, plainConstraint o.1 ∧ ExprOnce w ps o.2
  | .expr e => ExprOnce w ps e
  | .fnDecl d => TyOnce w ps d.retTy ∧ ∀ a ∈ d.args, TyOnce w ps a.1
  | .varDecl d => TyOnce w ps d.ty ∧ ExprOnce w ps d.rhs
  | .block ss => StmtsOnce ss
  | .ite c t f => ExprOnce w ps c ∧ StmtsOnce t ∧ StmtsOnce f
  | .doWhile b c => StmtsOnce b ∧ ExprOnce w ps c
/-- The same of all statements of a list. -/
def StmtsOnce : List Stmt → Prop
  | [] => True
  | s :: ss => StmtOnce s ∧ StmtsOnce ss
end

/-- The same of a macro body. -/
def BodyOnce : MacroBody → Prop
  | .expr e => ExprOnce w ps e
  | .stmt s => StmtOnce w ps s

end

end CMacro.Spec
