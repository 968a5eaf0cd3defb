import Verif.Model.Print

/-!
# Where parameters stand

A parameter of a Rust macro is declared with a fragment: only an `ident` may stand where Rust wants an identifier, and an `expr`
may not stand where Rust wants a type.
-/

namespace CMacro.Spec

/-- The parameters in a pasted name. -/
def pasteArgs : IdentExpr → List Nat
  | .concat ids => ids.filterMap fun | .arg i => some i | _ => none
  | _ => []

/-- The parameter that a name is. -/
def selfArg : IdentExpr → List Nat
  | .arg i => [i]
  | _ => []

/-- The parameters in pasted names of a type. -/
def tyPasted : Ty → List Nat
  | .ident n _ => pasteArgs n
  | .ptr t => tyPasted t
  | .qualified t _ => tyPasted t
  | _ => []

/-- The parameter that names a type. -/
def tyArg : Ty → List Nat
  | .ident n _ => selfArg n
  | .ptr t => tyArg t
  | .qualified t _ => tyArg t
  | _ => []

/-- The parameter that names a member. -/
def memberArg : BinOp → Expr → List Nat
  | .memberAccess, .var n => selfArg n
  | _, _ => []

mutual
/-- The parameters of an expression that stand for an identifier: names of members and parts of pasted names. -/
def exprIdents : Expr → List Nat
  | .var n => pasteArgs n
  | .call n as => pasteArgs n ++ exprsIdents as
  | .cast ty e => tyPasted ty ++ exprIdents e
  | .lit _ => []
  | .stringify _ => []
  | .concatStr parts => exprsIdents parts
  | .sizeOf ty => tyPasted ty
  | .un _ e => exprIdents e
  | .bin l op r => memberArg op r ++ (exprIdents l ++ exprIdents r)
  | .ternary c t f => exprIdents c ++ (exprIdents t ++ exprIdents f)
/-- The same of lists. -/
def exprsIdents : List Expr → List Nat
  | [] => []
  | e :: es => exprIdents e ++ exprsIdents es
end

mutual
/-- The parameters of an expression that stand for a type. -/
def exprTypes : Expr → List Nat
  | .var _ => []
  | .call _ as => exprsTypes as
  | .cast ty e => tyArg ty ++ exprTypes e
  | .lit _ => []
  | .stringify _ => []
  | .concatStr parts => exprsTypes parts
  | .sizeOf ty => tyArg ty
  | .un _ e => exprTypes e
  | .bin l _ r => exprTypes l ++ exprTypes r
  | .ternary c t f => exprTypes c ++ (exprTypes t ++ exprTypes f)
/-- The same of lists. -/
def exprsTypes : List Expr → List Nat
  | [] => []
  | e :: es => exprTypes e ++ exprsTypes es
end

mutual
/-- The parameters of a statement that stand for an identifier, other than in `stmtNames`. -/
def stmtIdents : Stmt → List Nat
  | .asm a => a.outputs.flatMap (fun o => exprIdents o.2.2) ++ a.inputs.flatMap fun o => exprIdents o.2
  | .expr e => exprIdents e
  | .fnDecl d => tyPasted d.retTy ++ (selfArg d.name ++ d.args.flatMap fun a => tyPasted a.1)
  | .varDecl d => tyPasted d.ty ++ (pasteArgs d.name ++ exprIdents d.rhs)
  | .block ss => stmtsIdents ss
  | .ite c t f => exprIdents c ++ (stmtsIdents t ++ stmtsIdents f)
  | .doWhile b c => stmtsIdents b ++ exprIdents c
/-- The same of lists. -/
def stmtsIdents : List Stmt → List Nat
  | [] => []
  | s :: ss => stmtIdents s ++ stmtsIdents ss
end

mutual
/-- The parameters of a statement that name a variable or a parameter of a declared function, or are part of the name of a
declared function. -/
def stmtNames : Stmt → List Nat
  | .fnDecl d => pasteArgs d.name ++ d.args.flatMap fun a => pasteArgs a.2 ++ selfArg a.2
  | .varDecl d => selfArg d.name
  | .block ss => stmtsNames ss
  | .ite _ t f => stmtsNames t ++ stmtsNames f
  | .doWhile b _ => stmtsNames b
  | _ => []
/-- The same of lists. -/
def stmtsNames : List Stmt → List Nat
  | [] => []
  | s :: ss => stmtNames s ++ stmtsNames ss
end

mutual
/-- The parameters of a statement that stand for a type. -/
def stmtTypes : Stmt → List Nat
  | .asm a => a.outputs.flatMap (fun o => exprTypes o.2.2) ++ a.inputs.flatMap fun o => exprTypes o.2
  | .expr e => exprTypes e
  | .fnDecl d => tyArg d.retTy ++ d.args.flatMap fun a => tyArg a.1
  | .varDecl d => tyArg d.ty ++ exprTypes d.rhs
  | .block ss => stmtsTypes ss
  | .ite c t f => exprTypes c ++ (stmtsTypes t ++ stmtsTypes f)
  | .doWhile b c => stmtsTypes b ++ exprTypes c
/-- The same of lists. -/
def stmtsTypes : List Stmt → List Nat
  | [] => []
  | s :: ss => stmtTypes s ++ stmtsTypes ss
end

/-- The parameters of a body that name members, are part of pasted names, or name declared functions. -/
def bodyIdents : MacroBody → List Nat
  | .expr e => exprIdents e
  | .stmt s => stmtIdents s

/-- The parameters of a body that are other names of declarations. -/
def bodyNames : MacroBody → List Nat
  | .expr _ => []
  | .stmt s => stmtNames s

/-- The parameters of a body that stand for a type. -/
def bodyTypes : MacroBody → List Nat
  | .expr e => exprTypes e
  | .stmt s => stmtTypes s

/-- The generated code is a macro, and its parameter `i` is declared as `$ x : frag`. -/
def DeclaredAs (g : GenFn) (i : Nat) (x frag : Str) : Prop :=
  ∃ name params body, g = .macro name params body ∧ params[i]? = some [.punct c!"$", .id x, .punct c!":", .id frag]

mutual
/-- What stands on the right of a member access is a name. -/
def MembersNamed : Expr → Prop
  | .call _ as => MembersNamedL as
  | .cast _ e => MembersNamed e
  | .concatStr parts => MembersNamedL parts
  | .un _ e => MembersNamed e
  | .bin l op r => (op = .memberAccess → ∃ n, r = .var n) ∧ MembersNamed l ∧ MembersNamed r
  | .ternary c t f => MembersNamed c ∧ MembersNamed t ∧ MembersNamed f
  | _ => True
/-- The same of lists. -/
def MembersNamedL : List Expr → Prop
  | [] => True
  | e :: es => MembersNamed e ∧ MembersNamedL es
end

mutual
/-- The same of statements. -/
def StmtMembersNamed : Stmt → Prop
  | .asm a => (∀ o ∈ a.outputs, MembersNamed o.2.2) ∧ ∀ o ∈ a.inputs, MembersNamed o.2
  | .expr e => MembersNamed e
  | .fnDecl _ => True
  | .varDecl d => MembersNamed d.rhs
  | .block ss => StmtsMembersNamed ss
  | .ite c t f => MembersNamed c ∧ StmtsMembersNamed t ∧ StmtsMembersNamed f
  | .doWhile b c => StmtsMembersNamed b ∧ MembersNamed c
/-- The same of lists. -/
def StmtsMembersNamed : List Stmt → Prop
  | [] => True
  | s :: ss => StmtMembersNamed s ∧ StmtsMembersNamed ss
end

/-- The same of bodies. -/
def BodyMembersNamed : MacroBody → Prop
  | .expr e => MembersNamed e
  | .stmt s => StmtMembersNamed s

end CMacro.Spec
