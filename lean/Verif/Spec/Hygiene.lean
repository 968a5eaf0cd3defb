import Verif.Spec.Occurs

/-!
# Specification: variables of generated functions
-/

namespace CMacro.Spec

/-- The text introduces a variable with this name: it contains `let x` or `let mut x`. -/
def Rebinds (x : Str) (ts : List RTok) : Prop := [.id c!"let", .id x] <:+: ts ∨ [.id c!"let", .id c!"mut", .id x] <:+: ts

mutual
/-- The names of the variables that a statement declares. -/
def declared : Stmt → List IdentExpr
  | .varDecl d => [d.name]
  | .block ss => declaredL ss
  | .ite _ t f => declaredL t ++ declaredL f
  | .doWhile b _ => declaredL b
  | _ => []
/-- The names of the variables that statements declare. -/
def declaredL : List Stmt → List IdentExpr
  | [] => []
  | s :: ss => declared s ++ declaredL ss
end

/-- The names of the variables that a macro body declares. -/
def bodyDeclared : MacroBody → List IdentExpr
  | .stmt s => declared s
  | .expr _ => []

/-- The body of a macro declares a variable with this name, or perhaps does: the name is pasted together. -/
def DeclaresVar (ps : List Str) (b : MacroBody) (x : Str) : Prop :=
  ∃ n ∈ bodyDeclared b, n = .plain x ∨ (∃ i, n = .arg i ∧ ps[i]? = some x) ∨ ∃ ids, n = .concat ids

/-- The body of generated code. -/
def codeOf : GenFn → List RTok
  | .macro _ _ code => code
  | .fn _ _ _ code => code

/-- The names that generated code looks up: those in the body of the macro, and for a function its parameters.  The parameters of
a generated macro stand for the text of the arguments, in which names are resolved where the macro is used. -/
def UsesName (m : FnMacro) : GenFn → Str → Prop
  | .macro _ _ _, x => Leaf.name x ∈ bodyLeaves m.body
  | .fn _ _ _ _, x => Leaf.name x ∈ bodyLeaves m.body ∨ x ∈ m.args

/-- Neither the macro nor the user of the crate uses `let` as a name, which Rust does not allow. -/
structure NoLet (C : Ctx) (m : FnMacro) : Prop where
  args : c!"let" ∉ m.args
  body : Leaf.name c!"let" ∉ bodyLeaves m.body
  types : ∀ id t, C.resolveTy id = some t → c!"let" ∉ rtyWords t
  ffi : ∀ p, C.ffiPrefix = some p → c!"let" ∉ p.segs
  trait : ∀ p, C.traitPrefix = some p → c!"let" ∉ p.segs
  variants : ∀ id t e, C.resolveEnumVariant id = some (t, e) → RTok.id c!"let" ∉ e

end CMacro.Spec
