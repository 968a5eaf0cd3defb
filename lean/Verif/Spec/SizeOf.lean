import Verif.Spec.FnDecl

/-!
# Specification: sizes of types and offsets of members

`sizeof ( T )` and `__builtin_offsetof ( T , m )` in C, and the expressions of Rust that have the same values:
`core::mem::size_of` is a generic function, `core::mem::offset_of` is a macro.
-/

namespace CMacro.Spec

/-- The name of `size_t` in Rust: what the user of the crate says it is, otherwise the type of the foreign types where there is one
(on a nightly compiler), otherwise `usize`. -/
def sizeTypeText (C : Ctx) : List RTok :=
  match C.resolveTy c!"size_t" with
  | some R => R.toks
  | none => if C.nightly then foreign C.ffiPrefix c!"c_size_t" else [.id c!"usize"]

/-- The size of a type in Rust, as a value of the type of sizes. -/
def sizeOfText (C : Ctx) (T : List RTok) : List RTok :=
  foreign C.traitPrefix c!"mem" ++ [.punct c!"::", .id c!"size_of", .punct c!"::", .punct c!"<"] ++ T ++
    [.punct c!">", .punct c!"(", .punct c!")", .id c!"as"] ++ sizeTypeText C

/-- The offset of a member in Rust. -/
def offsetOfText (C : Ctx) (T m : List RTok) : List RTok :=
  foreign C.traitPrefix c!"mem" ++ [.punct c!"::", .id c!"offset_of", .punct c!"!", .punct c!"("] ++ T ++ [.punct c!","] ++ m ++ [.punct c!")"]

/-- The tokens of `sizeof ( ts )`. -/
def sizeOfBody (ts : List MacroToken) : List MacroToken := .ident c!"sizeof" :: .punct c!"(" :: (ts ++ [.punct c!")"])

/-- The tokens of `__builtin_offsetof ( ts , x )`. -/
def offsetOfBody (ts : List MacroToken) (x : MacroToken) : List MacroToken :=
  .ident c!"__builtin_offsetof" :: .punct c!"(" :: (ts ++ [.punct c!",", x, .punct c!")"])

/-- A type whose name may be a parameter of the macro. -/
inductive TypeOrParam (C : Ctx) (params : List Str) : List MacroToken → List RTok → Prop
  | type {ts T} : TypeSpelled C ts T → TypeOrParam C params ts T
  | param {i p} : params[i]? = some p → TypeOrParam C params [.arg i] [.punct c!"$", .id p]

end CMacro.Spec
