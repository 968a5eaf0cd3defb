import Verif.Spec.Statements
import Verif.Spec.FnValue
import Verif.Model.Print

/-!
# Specification: declarations of functions, in C and in Rust

A C function declaration, as a list of tokens, and the declaration of the same function in Rust: an `extern "C"` block.
-/

namespace CMacro.Spec

/-- A name in the module of the foreign types. -/
def foreign (pre : Option RPath) (name : Str) : List RTok :=
  (match pre with
    | none => []
    | some p => (if p.leadingColon then [.punct c!"::"] else []) ++ p.segs.flatMap fun s => [.id s, .punct c!"::"])
  ++ [.id name]

/-- `TypeSpelled C ts T`: the type that is written `ts` in C is written `T` in Rust.  Names of types have the meaning that the
user of the crate gives them. -/
inductive TypeSpelled (C : Ctx) : List MacroToken → List RTok → Prop
  | int {ws : List Str} {t : IntTy} : Denotes ws t.cType → SignFirst ws → ¬ SignAlone ws →
      TypeSpelled C (ws.map .ident) (tyText C.ffiPrefix t)
  | char : TypeSpelled C [.ident c!"char"] (foreign C.ffiPrefix c!"c_char")
  | bool : TypeSpelled C [.ident c!"bool"] [.id c!"bool"]
  | float : TypeSpelled C [.ident c!"float"] [.id c!"f32"]
  | double : TypeSpelled C [.ident c!"double"] [.id c!"f64"]
  | name {id : Str} {p : RPath} : id ∉ cKeywords → C.resolveTy id = some (.path .plain p) →
      TypeSpelled C [.ident id] (RTy.path .plain p).toks
  | voidPtr : TypeSpelled C [.ident c!"void", .punct c!"*"] ([.punct c!"*", .id c!"mut"] ++ foreign C.ffiPrefix c!"c_void")
  | ptr {ts T} : TypeSpelled C ts T → TypeSpelled C (ts ++ [.punct c!"*"]) ([.punct c!"*", .id c!"mut"] ++ T)

/-- The parameters of a declared function, in C and in Rust. -/
inductive ParamsSpelled (C : Ctx) : List MacroToken → List RTok → Prop
  | nil : ParamsSpelled C [] []
  | one {us T x} : TypeSpelled C us T → x ∉ cKeywords → ParamsSpelled C (us ++ [.ident x]) ([.id x, .punct c!":"] ++ T)
  | cons {us T x vs A} : TypeSpelled C us T → x ∉ cKeywords → vs ≠ [] → ParamsSpelled C vs A →
      ParamsSpelled C (us ++ .ident x :: .punct c!"," :: vs) ([.id x, .punct c!":"] ++ T ++ [.punct c!","] ++ A)

/-- The name of a declared function: itself, or a parameter of the macro. -/
inductive NameSpelled (params : List Str) : MacroToken → List RTok → Prop
  | ident {f} : f ∉ cKeywords → NameSpelled params (.ident f) [.id f]
  | param {i p} : params[i]? = some p → NameSpelled params (.arg i) [.punct c!"$", .id p]

/-- The block that declares a function in Rust. -/
def externText (name params ret : List RTok) : List RTok :=
  [.id c!"extern", .str c!"C", .punct c!"{", .id c!"pub", .id c!"fn"] ++ name ++ [.punct c!"("] ++ params ++ [.punct c!")"] ++ ret ++
    [.punct c!";", .punct c!"}"]

/-- `FnSpelled C params ts out`: the tokens declare a function in C, and `out` declares it in Rust; `( void )` says that there are
no parameters, and the result `void` is not mentioned in Rust.  The last semicolon may be left to the user of the macro. -/
inductive FnSpelled (C : Ctx) (params : List Str) : List MacroToken → List RTok → Prop
  | value {us T x N vs A b} : TypeSpelled C us T → NameSpelled params x N → ParamsSpelled C vs A ∨ (vs = [.ident c!"void"] ∧ A = []) →
      FnSpelled C params (us ++ x :: .punct c!"(" :: (vs ++ .punct c!")" :: semi b)) (externText N A ([.punct c!"->"] ++ T))
  | void {x N vs A b} : NameSpelled params x N → ParamsSpelled C vs A ∨ (vs = [.ident c!"void"] ∧ A = []) →
      FnSpelled C params (.ident c!"void" :: x :: .punct c!"(" :: (vs ++ .punct c!")" :: semi b)) (externText N A [])

end CMacro.Spec
