import Verif.Spec.Grammar

/-!
# The statement grammar of C

C11, section 6.8, as a relation between token sequences and trees: expression statements,
declarations with an initializer, declarations of functions with named parameters or `( void )`, blocks, `if`, `if … else` and `do … while`.

Left out: the empty statement, labels, `for`, `while`, `switch`, jumps and inline assembly.  An
expression statement that begins with a name and `*` is left out, because `a * b();` is a
declaration if `a` names a type.
-/

namespace CMacro.Spec

/-- The words that begin inline assembly. -/
def asmStarts : List Str := [c!"asm", c!"__asm", c!"__asm__"]

/-- The tokens begin an expression statement for certain: not with a name and `*`, and not with the
word for inline assembly. -/
def ExprStart (ts : List MacroToken) : Prop :=
  (∀ t n r, Name t n → ts ≠ t :: .punct c!"*" :: r) ∧ ∀ w ∈ asmStarts, ∀ r, ts ≠ .ident w :: r

/-- The type of a declaration: a built-in type, the name of a type, or a pointer. -/
inductive DeclType : List MacroToken → Ty → Prop
  | builtIn {ts t} : TypeName ts t → DeclType ts t
  | name {t n} : Name t n → DeclType [t] (.ident n false)
  | ptr {ts t} : DeclType ts t → DeclType (ts ++ [.punct c!"*"]) (.ptr t)

/-- The word `static`, or not. -/
def staticWord (s : Bool) : List MacroToken := if s then [.ident c!"static"] else []

/-- The parameters of a declared function, with their types.  `D`: the word `void`, for no parameters, is in the language. -/
inductive GParams (D : Bool) : List MacroToken → List (Ty × IdentExpr) → Prop
  | nil : GParams D [] []
  | void : D = true → GParams D [.ident c!"void"] []
  | one {us t x n} : DeclType us t → Name x n → GParams D (us ++ [x]) [(t, n)]
  | cons {us t x n vs p ps} : DeclType us t → Name x n → GParams D vs (p :: ps) →
      GParams D (us ++ x :: .punct c!"," :: vs) ((t, n) :: p :: ps)

/-- The semicolon at the end of a statement.  The user of a macro writes the last one, so it may be missing at the
end of a body. -/
def semi (b : Bool) : List MacroToken := if b then [.punct c!";"] else []

/-- A statement as a branch: the statements of a block, or the one statement. -/
def branch : Stmt → List Stmt
  | .block ss => ss
  | s => [s]

mutual

/-- `GStmt D b o ts s`: the tokens are a statement and `s` is its tree.  `b`: the statement is complete, that is, the
last semicolon is there.  `o`: it ends in an `if` without `else`, and a following `else` would belong to that.  `D`:
a complete `do … while` is in the language, and so is a function that is declared with the parameters `( void )`. -/
inductive GStmt (D : Bool) : Bool → Bool → List MacroToken → Stmt → Prop
  | expr {b ts e} : Gram 12 ts e → ExprStart ts → GStmt D b false (ts ++ semi b) (.expr e)
  | decl {b s us t x n ts e} : DeclType us t → Name x n → Gram 12 ts e →
      GStmt D b false (staticWord s ++ (us ++ x :: .punct c!"=" :: (ts ++ semi b))) (.varDecl ⟨t, n, e, s⟩)
  | fn {b s us t x n vs ps} : DeclType us t → Name x n → GParams D vs ps →
      GStmt D b false (staticWord s ++ (us ++ x :: .punct c!"(" :: (vs ++ .punct c!")" :: semi b))) (.fnDecl ⟨t, n, ps⟩)
  | block {b ts ss} : GStmts D true ts ss → GStmt D b false (.punct c!"{" :: (ts ++ [.punct c!"}"])) (.block ss)
  | ite {b o cs c ts s} : Gram 12 cs c → GStmt D b o ts s →
      GStmt D b true (.ident c!"if" :: .punct c!"(" :: (cs ++ .punct c!")" :: ts)) (.ite c (branch s) [])
  | iteElse {b o cs c ts s us s'} : Gram 12 cs c → GStmt D true false ts s → GStmt D b o us s' →
      GStmt D b o (.ident c!"if" :: .punct c!"(" :: (cs ++ .punct c!")" :: (ts ++ .ident c!"else" :: us)))
        (.ite c (branch s) (branch s'))
  | doWhile {b o cs c ts s} : GStmt D true o ts s → Gram 12 cs c → (b = true → D = true) →
      GStmt D b false (.ident c!"do" :: (ts ++ .ident c!"while" :: .punct c!"(" :: (cs ++ .punct c!")" :: semi b)))
        (.doWhile (branch s) c)

/-- Statements one after the other; all but the last are complete. -/
inductive GStmts (D : Bool) : Bool → List MacroToken → List Stmt → Prop
  | nil {b} : GStmts D b [] []
  | last {b o ts s} : GStmt D b o ts s → GStmts D b ts [s]
  | cons {b o ts s us s' ss} : GStmt D true o ts s → GStmts D b us (s' :: ss) → GStmts D b (ts ++ us) (s :: s' :: ss)

end

/-- The tree of a body: one statement stands for itself. -/
def bodyTree : List Stmt → Stmt
  | [s] => s
  | ss => .block ss

end CMacro.Spec
