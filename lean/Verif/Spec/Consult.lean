import Verif.Model.Generate
import Verif.Spec.Occurs

/-!
# What is asked of the user of the crate
-/

namespace CMacro.Spec

/-- Two users that cannot be told apart by asking about the names in `N`, and about the parameters `ps` of the macro `m`. -/
structure SameOn (N : Str → Prop) (m : Str) (ps : List Str) (C D : Ctx) : Prop where
  env : C.env = D.env
  isZero : C.fIsZero = D.fIsZero
  nightly : C.nightly = D.nightly
  elision : C.elision = D.elision
  cstr : C.cstr = D.cstr
  ffi : C.ffiPrefix = D.ffiPrefix
  trait : C.traitPrefix = D.traitPrefix
  params : ∀ p ∈ ps, C.macroArgTy m p = D.macroArgTy m p
  variants : ∀ x, N x → C.resolveEnumVariant x = D.resolveEnumVariant x
  types : ∀ x, N x → C.resolveTy x = D.resolveTy x
  /-- A field is asked for by the name of a type and the name of the field. -/
  fields : ∀ T x, N x → C.resolveFieldTy T x = D.resolveFieldTy T x
  functions : ∀ x, N x → C.function x = D.function x

/-- The names that may be asked for: those of the macro, `wchar_t` and `size_t`, and those in the answers about types. -/
structure Asked (C : Ctx) (m : Str) (b : MacroBody) (N : Str → Prop) : Prop where
  self : N m
  wide : N c!"wchar_t"
  size : N c!"size_t"
  body : ∀ x, Leaf.name x ∈ bodyLeaves b → N x
  answers : ∀ x t, N x → C.resolveTy x = some t → ∀ y ∈ rtyWords t, N y

end CMacro.Spec
