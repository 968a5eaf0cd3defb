import Verif.Model.Token

/-!
# Syntax trees

Model of the data types of /repo/src/ast: identifiers with pasting, types, expressions,
statements.
-/

namespace CMacro

/-- /repo/src/ast/identifier_expr.rs:148-155, `IdentifierContinuationExpr`. -/
inductive IdentCont
  | arg (i : Nat)
  | plain (id : Str)
  | int (n : LitInt)
  deriving DecidableEq, Repr

/-- /repo/src/ast/identifier_expr.rs:23-30, `IdentifierExpr`; `Var` (/repo/src/ast/var.rs:13-16)
is a wrapper of it. -/
inductive IdentExpr
  | arg (i : Nat)
  | plain (id : Str)
  | concat (ids : List IdentCont)
  deriving DecidableEq, Repr

/-- /repo/src/ast/ty.rs:325-332, `TypeQualifier`. -/
inductive Qualifier
  | const | volatile | constVolatile
  deriving DecidableEq, Repr

/-- /repo/src/ast/ty.rs:364-379, `Type`. -/
inductive Ty
  | builtIn (b : BuiltInType)
  | ident (name : IdentExpr) (isStruct : Bool)
  | path (leadingColon : Bool) (segments : List Str)
  | ptr (ty : Ty)
  | qualified (ty : Ty) (q : Qualifier)
  deriving DecidableEq, Repr

/-- /repo/src/ast/unary_expr.rs:10-31, `UnaryOp`. -/
inductive UnOp
  | postInc | postDec | inc | dec | plus | minus | not | comp | deref | addrOf
  deriving DecidableEq, Repr

/-- /repo/src/ast/binary_expr.rs:19-80, `BinaryOp`. -/
inductive BinOp
  | mul | div | rem | add | sub | shl | shr | lt | lte | gt | gte | eq | neq
  | bitAnd | bitXor | bitOr | and | or
  | assign | addAssign | subAssign | mulAssign | divAssign | remAssign | shlAssign | shrAssign
  | bitAndAssign | bitXorAssign | bitOrAssign | memberAccess
  deriving DecidableEq, Repr

/-- /repo/src/ast/expr.rs:19-30, `Expr`, with the payload structs `Var`, `FunctionCall`,
`Cast`, `UnaryExpr`, `BinaryExpr`, `TernaryExpr` inlined.  `Stringify` holds an arbitrary
expression in Rust, but it is only ever built around a variable
(/repo/src/ast/stringify.rs:36-40), so it holds the name here. -/
inductive Expr
  | var (name : IdentExpr)
  | call (name : IdentExpr) (args : List Expr)
  | cast (ty : Ty) (e : Expr)
  | lit (l : Lit)
  | stringify (name : IdentExpr)
  | concatStr (parts : List Expr)
  | sizeOf (ty : Ty)
  | un (op : UnOp) (e : Expr)
  | bin (lhs : Expr) (op : BinOp) (rhs : Expr)
  | ternary (c t f : Expr)
  deriving Repr

mutual
/-- Boolean equality of expressions (`PartialEq` derived at /repo/src/ast/expr.rs:17). -/
def Expr.beq : Expr → Expr → Bool
  | .var a, .var b => decide (a = b)
  | .call n as, .call m bs => decide (n = m) && Expr.beqL as bs
  | .cast t a, .cast u b => decide (t = u) && Expr.beq a b
  | .lit a, .lit b => decide (a = b)
  | .stringify a, .stringify b => decide (a = b)
  | .concatStr as, .concatStr bs => Expr.beqL as bs
  | .sizeOf a, .sizeOf b => decide (a = b)
  | .un o a, .un p b => decide (o = p) && Expr.beq a b
  | .bin a o b, .bin c p d => decide (o = p) && Expr.beq a c && Expr.beq b d
  | .ternary a b c, .ternary d e f => Expr.beq a d && Expr.beq b e && Expr.beq c f
  | _, _ => false
/-- Boolean equality of lists of expressions (/repo/src/ast/expr.rs:17). -/
def Expr.beqL : List Expr → List Expr → Bool
  | [], [] => true
  | a :: as, b :: bs => Expr.beq a b && Expr.beqL as bs
  | _, _ => false
end

mutual
theorem Expr.beq_sound : ∀ a b : Expr, Expr.beq a b = true → a = b
  | .var _, b, h => by cases b <;> simp_all [Expr.beq]
  | .call _ as, b, h => by
    cases b <;> simp_all [Expr.beq]
    exact Expr.beqL_sound as _ h.2
  | .cast _ a, b, h => by
    cases b <;> simp_all [Expr.beq]
    exact Expr.beq_sound a _ h.2
  | .lit _, b, h => by cases b <;> simp_all [Expr.beq]
  | .stringify _, b, h => by cases b <;> simp_all [Expr.beq]
  | .concatStr as, b, h => by
    cases b <;> simp_all [Expr.beq]
    exact Expr.beqL_sound as _ h
  | .sizeOf _, b, h => by cases b <;> simp_all [Expr.beq]
  | .un _ a, b, h => by
    cases b <;> simp_all [Expr.beq]
    exact Expr.beq_sound a _ h.2
  | .bin a _ c, b, h => by
    cases b <;> simp_all [Expr.beq]
    exact ⟨Expr.beq_sound a _ h.1.2, Expr.beq_sound c _ h.2⟩
  | .ternary a c d, b, h => by
    cases b <;> simp_all [Expr.beq]
    exact ⟨Expr.beq_sound a _ h.1.1, Expr.beq_sound c _ h.1.2, Expr.beq_sound d _ h.2⟩
theorem Expr.beqL_sound : ∀ a b : List Expr, Expr.beqL a b = true → a = b
  | [], b, h => by cases b <;> simp_all [Expr.beqL]
  | a :: as, b, h => by
    cases b <;> simp_all [Expr.beqL]
    exact ⟨Expr.beq_sound a _ h.1, Expr.beqL_sound as _ h.2⟩
end

mutual
theorem Expr.beq_refl : ∀ a : Expr, Expr.beq a a = true
  | .var _ | .lit _ | .stringify _ | .sizeOf _ => by simp [Expr.beq]
  | .call _ as => by simp [Expr.beq, Expr.beqL_refl as]
  | .cast _ a => by simp [Expr.beq, Expr.beq_refl a]
  | .concatStr as => by simp [Expr.beq, Expr.beqL_refl as]
  | .un _ a => by simp [Expr.beq, Expr.beq_refl a]
  | .bin a _ c => by simp [Expr.beq, Expr.beq_refl a, Expr.beq_refl c]
  | .ternary a c d => by simp [Expr.beq, Expr.beq_refl a, Expr.beq_refl c, Expr.beq_refl d]
theorem Expr.beqL_refl : ∀ a : List Expr, Expr.beqL a a = true
  | [] => rfl
  | a :: as => by simp [Expr.beqL, Expr.beq_refl a, Expr.beqL_refl as]
end

instance : DecidableEq Expr := fun a b =>
  if h : Expr.beq a b = true then isTrue (Expr.beq_sound a b h)
  else isFalse fun e => h (e ▸ Expr.beq_refl a)

/-- /repo/src/ast/asm.rs:21-24, `Dir`. -/
inductive Dir
  | out | inOut
  deriving DecidableEq, Repr

/-- /repo/src/ast/asm.rs:36-42, `RegConstraint`. -/
inductive RegConstraint
  | reg | regAbcd | regByte | freg | digit (n : Nat)
  deriving DecidableEq, Repr

/-- /repo/src/ast/asm.rs:70-75, `Asm`. -/
structure Asm where
  template : List Str
  outputs : List (Dir × RegConstraint × Expr)
  inputs : List (RegConstraint × Expr)
  clobbers : List Str
  deriving DecidableEq, Repr

/-- /repo/src/ast/function_decl.rs:25-29, `FunctionDecl`. -/
structure FunctionDecl where
  retTy : Ty
  name : IdentExpr
  args : List (Ty × IdentExpr)
  deriving DecidableEq, Repr

/-- /repo/src/ast/var_decl.rs:17-22, `VarDecl`. -/
structure VarDecl where
  ty : Ty
  name : IdentExpr
  rhs : Expr
  isStatic : Bool
  deriving DecidableEq, Repr

/-- /repo/src/ast/statement.rs:29-50, `Statement`. -/
inductive Stmt
  | asm (a : Asm)
  | expr (e : Expr)
  | fnDecl (f : FunctionDecl)
  | varDecl (d : VarDecl)
  | block (ss : List Stmt)
  | ite (c : Expr) (t f : List Stmt)
  | doWhile (b : List Stmt) (c : Expr)
  deriving Repr

/-- /repo/src/macro_body.rs:16-37, `MacroBody`. -/
inductive MacroBody
  | stmt (s : Stmt)
  | expr (e : Expr)
  deriving Repr

end CMacro
