import Verif.Model.Print
import Verif.Spec.Lex

/-!
# Bodies for which code generation does not panic

The code generator panics when it divides by zero while folding constants, when it makes a Rust
identifier of something that is none, when it looks up a parameter that does not exist, and when it
removes an operand of inline assembly that does not exist.  The predicates here say of a macro body,
as it was parsed, that none of this can happen.
-/

namespace CMacro.Spec

/-- A text that `proc_macro2::Ident::new` accepts. -/
def Word (E : Env) (s : Str) : Prop := IsIdent E.xidStart E.xidContinue s

/-- A type supplied by the context is made of identifiers. -/
def WordTy (E : Env) : RTy → Prop
  | .ptr _ t => WordTy E t
  | .unit => True
  | .verbatim s => Word E s
  | .path _ p => ∀ s ∈ p.segs, Word E s
  | .other _ => True

/-- A token supplied by the context is no invalid identifier. -/
def WordTok (E : Env) : RTok → Prop
  | .id s => Word E s
  | .bad => False
  | _ => True

/-- All names supplied by the context are identifiers. -/
structure CalmCtx (C : Ctx) : Prop where
  ffi : ∀ p, C.ffiPrefix = some p → ∀ s ∈ p.segs, Word C.env s
  trait : ∀ p, C.traitPrefix = some p → ∀ s ∈ p.segs, Word C.env s
  arg : ∀ m a t, C.macroArgTy m a = some t → WordTy C.env t
  variant : ∀ v t ts, C.resolveEnumVariant v = some (t, ts) → WordTy C.env t ∧ ∀ x ∈ ts, WordTok C.env x
  ty : ∀ n t, C.resolveTy n = some t → WordTy C.env t
  field : ∀ n f t, C.resolveFieldTy n f = some t → WordTy C.env t
  function : ∀ f as r, C.function f = some (as, r) → WordTy C.env r ∧ ∀ t ∈ as, WordTy C.env t

/-- Parameter names: identifiers, and possibly `...` at the end. -/
def CalmParams (E : Env) (params : List Str) : Prop :=
  (∀ s ∈ params, Word E s) ∨ ∃ named, params = named ++ [c!"..."] ∧ ∀ s ∈ named, Word E s

/-- A part of a pasted name: an existing parameter, an identifier, or a plain number. -/
def CalmPart (E : Env) (n : Nat) : IdentCont → Prop
  | .arg i => i < n
  | .plain s => Word E s
  | .int v => v.suffix = none ∧ 0 ≤ v.value.toInt

/-- A name: an existing one of `n` parameters, an identifier, or a pasted name. -/
def CalmName (E : Env) (n : Nat) : IdentExpr → Prop
  | .arg i => i < n
  | .plain s => Word E s
  | .concat ids => ∀ c ∈ ids, CalmPart E n c

/-- A type made of such names. -/
def CalmTy (E : Env) (n : Nat) : Ty → Prop
  | .builtIn _ => True
  | .ident name _ => CalmName E n name
  | .path _ segs => ∀ s ∈ segs, Word E s
  | .ptr t => CalmTy E n t
  | .qualified t _ => CalmTy E n t

/-- Whether an expression is made of numbers and operators only, so that it may be folded to a
number.  (Juxtaposed strings count as well.) -/
def foldable : Expr → Bool
  | .lit (.int _) | .lit (.float _) => true
  | .un _ e => foldable e
  | .bin l _ r => foldable l && foldable r
  | .concatStr _ => true
  | _ => false

/-- A quotient that cannot be folded to a division by zero: one of the operands is not made of numbers
only, or the divisor is a literal other than the integer zero. -/
def CalmQuotient (l r : Expr) : Prop :=
  foldable l = false ∨ foldable r = false ∨ ∃ v, r = .lit v ∧ ∀ n, v = .int n → n.value ≠ 0

mutual
/-- An expression that cannot make the code generator panic, in a macro with these parameters. -/
def CalmExpr (E : Env) (params : List Str) : Expr → Prop
  | .var n => CalmName E params.length n
  | .call n as => CalmName E params.length n ∧ CalmExprs E params as
  | .cast t e => CalmTy E params.length t ∧ CalmExpr E params e
  | .lit _ => True
  | .stringify (.arg i) => ∃ s, params[i]? = some s ∧ Word E s
  | .stringify _ => True
  | .concatStr ps => CalmExprs E params ps
  | .sizeOf t => CalmTy E params.length t
  | .un _ e => CalmExpr E params e
  | .bin l op r => (op = .div ∨ op = .rem → CalmQuotient l r) ∧ CalmExpr E params l ∧ CalmExpr E params r
  | .ternary c t f => CalmExpr E params c ∧ CalmExpr E params t ∧ CalmExpr E params f
/-- The same for lists. -/
def CalmExprs (E : Env) (params : List Str) : List Expr → Prop
  | [] => True
  | e :: es => CalmExpr E params e ∧ CalmExprs E params es
end

/-- The inputs of inline assembly that repeat the place of an output: removing them one after the other,
each by the number of the output, stays in range. -/
def removable : List RegConstraint → (outputs inputs : Nat) → Prop
  | [], _, _ => True
  | .digit d :: cs, outs, ins => if d < outs then d < ins ∧ removable cs outs (ins - 1) else removable cs outs ins
  | _ :: cs, outs, ins => removable cs outs ins

/-- Inline assembly. -/
def CalmAsm (E : Env) (params : List Str) (a : Asm) : Prop :=
  (∀ o ∈ a.outputs, CalmExpr E params o.2.2) ∧ (∀ o ∈ a.inputs, CalmExpr E params o.2) ∧
  removable (a.inputs.map (·.1)) a.outputs.length a.inputs.length

mutual
/-- A statement that cannot make the code generator panic. -/
def CalmStmt (E : Env) (params : List Str) : Stmt → Prop
  | .asm a => CalmAsm E params a
  | .expr e => CalmExpr E params e
  | .fnDecl d => CalmTy E params.length d.retTy ∧ CalmName E params.length d.name ∧
      ∀ a ∈ d.args, CalmTy E params.length a.1 ∧ CalmName E params.length a.2
  | .varDecl d => CalmTy E params.length d.ty ∧ CalmName E params.length d.name ∧ CalmExpr E params d.rhs
  | .block ss => CalmStmts E params ss
  | .ite c t f => CalmExpr E params c ∧ CalmStmts E params t ∧ CalmStmts E params f
  | .doWhile b c => CalmStmts E params b ∧ CalmExpr E params c
/-- The same for lists. -/
def CalmStmts (E : Env) (params : List Str) : List Stmt → Prop
  | [] => True
  | s :: ss => CalmStmt E params s ∧ CalmStmts E params ss
end

/-- A body that cannot make the code generator panic. -/
def CalmBody (E : Env) (params : List Str) : MacroBody → Prop
  | .stmt s => CalmStmt E params s
  | .expr e => CalmExpr E params e

mutual
/-- The part of `CalmExpr` that is not a matter of names: no division by zero while folding, no `#` before
the variadic parameter. -/
def SteadyExpr (params : List Str) : Expr → Prop
  | .call _ as => SteadyExprs params as
  | .cast _ e => SteadyExpr params e
  | .stringify (.arg i) => params[i]? ≠ some c!"..."
  | .concatStr ps => SteadyExprs params ps
  | .un _ e => SteadyExpr params e
  | .bin l op r => (op = .div ∨ op = .rem → CalmQuotient l r) ∧ SteadyExpr params l ∧ SteadyExpr params r
  | .ternary c t f => SteadyExpr params c ∧ SteadyExpr params t ∧ SteadyExpr params f
  | _ => True
/-- The same for lists. -/
def SteadyExprs (params : List Str) : List Expr → Prop
  | [] => True
  | e :: es => SteadyExpr params e ∧ SteadyExprs params es
end

mutual
/-- The same for statements; the repeated operands of inline assembly can be removed. -/
def SteadyStmt (params : List Str) : Stmt → Prop
  | .asm a => (∀ o ∈ a.outputs, SteadyExpr params o.2.2) ∧ (∀ o ∈ a.inputs, SteadyExpr params o.2) ∧
      removable (a.inputs.map (·.1)) a.outputs.length a.inputs.length
  | .expr e => SteadyExpr params e
  | .fnDecl _ => True
  | .varDecl d => SteadyExpr params d.rhs
  | .block ss => SteadyStmts params ss
  | .ite c t f => SteadyExpr params c ∧ SteadyStmts params t ∧ SteadyStmts params f
  | .doWhile b c => SteadyStmts params b ∧ SteadyExpr params c
/-- The same for lists. -/
def SteadyStmts (params : List Str) : List Stmt → Prop
  | [] => True
  | s :: ss => SteadyStmt params s ∧ SteadyStmts params ss
end

/-- The same for bodies. -/
def SteadyBody (params : List Str) : MacroBody → Prop
  | .stmt s => SteadyStmt params s
  | .expr e => SteadyExpr params e

end CMacro.Spec
