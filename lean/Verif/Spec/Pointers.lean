import Verif.Spec.FnDecl

/-!
# Specification: pointers to constant objects

In C, `const T *` points to objects that may not be changed through it, and `T * const` is a pointer that may not be changed itself.
Rust writes the first as `*const T`, and has nothing to say about the second in a type.
-/

namespace CMacro.Spec

/-- The qualifiers in one place. -/
def Qualifiers (ws : List Str) : Prop :=
  ws ∈ [[], [c!"const"], [c!"volatile"], [c!"const", c!"volatile"], [c!"volatile", c!"const"]]

/-- `BaseSpelled C T B`: the type that has the name `T` in C is written `B` in Rust. -/
inductive BaseSpelled (C : Ctx) : Str → List RTok → Prop
  | char : BaseSpelled C c!"char" (foreign C.ffiPrefix c!"c_char")
  | int : BaseSpelled C c!"int" (foreign C.ffiPrefix c!"c_int")
  | void : BaseSpelled C c!"void" (foreign C.ffiPrefix c!"c_void")
  | bool : BaseSpelled C c!"bool" [.id c!"bool"]
  | float : BaseSpelled C c!"float" [.id c!"f32"]
  | double : BaseSpelled C c!"double" [.id c!"f64"]
  | name {id p} : id ∉ cKeywords → C.resolveTy id = some (.path .plain p) → BaseSpelled C id (RTy.path .plain p).toks

/-- A type in C: a name with qualifiers on both sides, and stars, each followed by the qualifiers of the pointer itself. -/
def pointerWords (q : List Str) (T : Str) (q' : List Str) (stars : List (List Str)) : List MacroToken :=
  q.map .ident ++ .ident T :: (q'.map .ident ++ stars.flatMap fun s => .punct c!"*" :: s.map .ident)

/-- The same type in Rust: what the first star points to is constant if `const` stands in `q`; what the next star points to is constant
if `const` stands next to the star before it. -/
def pointerText (q : List Str) (B : List RTok) : List (List Str) → List RTok
  | [] => B
  | s :: stars => pointerText s ([.punct c!"*", .id (if c!"const" ∈ q then c!"const" else c!"mut")] ++ B) stars

/-- The type in which each pointer is written as its own qualifiers say, instead of those of what it points to. -/
def ownText (B : List RTok) : List (List Str) → List RTok
  | [] => B
  | s :: stars => ownText ([.punct c!"*", .id (if c!"const" ∈ s then c!"const" else c!"mut")] ++ B) stars

end CMacro.Spec
