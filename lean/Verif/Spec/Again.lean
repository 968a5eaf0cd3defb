import Verif.Model.Finish

/-!
# Macros for which generating code twice makes no difference

`generate` takes the macro by `&mut self` and rewrites its body, so a second call starts from what
the first one left.  This file says what has to hold of a body, and of the context, for the second
call to change nothing more.
-/

namespace CMacro.Spec

/-- The names of types a type consists of. -/
def typeNames : Ty → List Str
  | .ident (.plain s) _ => [s]
  | .ptr t => typeNames t
  | .qualified t _ => typeNames t
  | _ => []

/-- Every name of a type the context answers with is answered by the context with that name. -/
def Settled (C : Ctx) : Prop :=
  ∀ id t u, C.resolveTy id = some t → Ty.fromRust C.ffiPrefix t = .ok u →
    ∀ s ∈ typeNames u, ∃ t', C.resolveTy s = some t' ∧ Ty.fromRust C.ffiPrefix t' = .ok (.ident (.plain s) false)

/-- Types without parameters and `##`. -/
def namedTy : Ty → Bool
  | .ident (.plain _) _ => true
  | .ident _ _ => false
  | .ptr t => namedTy t
  | .qualified t _ => namedTy t
  | _ => true

/-- Expressions made only of numbers and operators: whether one of the numbers is floating. -/
def numeral : Expr → Option Bool
  | .lit (.int _) => some false
  | .lit (.float _) => some true
  | .un _ x => numeral x
  | .bin l _ r =>
    match numeral l, numeral r with
    | some a, some b => some (a || b)
    | _, _ => none
  | _ => none

/-- What strings may be put together from. -/
def stringPart : Expr → Bool
  | .lit (.string _) => true
  | .var (.arg _) => true
  | .var (.plain _) => true
  | .stringify _ => true
  | _ => false

mutual
/-- No `*` is applied anywhere. -/
def noDeref : Expr → Bool
  | .un .deref _ => false
  | .un _ x => noDeref x
  | .bin l _ r => noDeref l && noDeref r
  | .ternary c t u => noDeref c && noDeref t && noDeref u
  | .cast _ x => noDeref x
  | .call _ as => noDerefs as
  | .concatStr ps => noDerefs ps
  | _ => true
/-- No `*` is applied in any of the expressions. -/
def noDerefs : List Expr → Bool
  | [] => true
  | e :: es => noDeref e && noDerefs es
end

mutual
/-- There are no character constants, types are given by names, no `*` occurs inside the operand of
a cast, `!` is not applied to a number, conditions are not floating numbers, and strings are put
together from strings, names and `#`. -/
def steady : Expr → Bool
  | .var _ => true
  | .lit (.char _) => false
  | .lit _ => true
  | .stringify _ => true
  | .sizeOf ty => namedTy ty
  | .cast ty x => namedTy ty && noDeref x && steady x
  | .un op x => (op != .not || (numeral x).isNone) && steady x
  | .bin l _ r => steady l && steady r
  | .ternary c t u => numeral c != some true && steady c && steady t && steady u
  | .call _ as => steadys as
  | .concatStr ps => ps.all stringPart && steadys ps
/-- The same for lists. -/
def steadys : List Expr → Bool
  | [] => true
  | e :: es => steady e && steadys es
end

/-- A condition of `if` or `while`. -/
def steadyCond (c : Expr) : Bool := numeral c != some true && steady c

mutual
/-- The same for statements. -/
def steadyStmt : Stmt → Bool
  | .expr e => steady e
  | .varDecl d => namedTy d.ty && steady d.rhs
  | .fnDecl d => namedTy d.retTy && d.args.all fun a => namedTy a.1
  | .asm a => (a.outputs.all fun o => steady o.2.2) && a.inputs.all fun i => steady i.2
  | .block ss => steadyStmts ss
  | .ite c t u => steadyCond c && steadyStmts t && steadyStmts u
  | .doWhile b c => steadyStmts b && steadyCond c
/-- The same for lists of statements. -/
def steadyStmts : List Stmt → Bool
  | [] => true
  | s :: ss => steadyStmt s && steadyStmts ss
end

/-- The same for the body of a macro. -/
def steadyBody : MacroBody → Bool
  | .expr e => steady e
  | .stmt s => steadyStmt s

end CMacro.Spec
