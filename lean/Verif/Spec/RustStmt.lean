import Verif.Spec.RustSyntax

/-!
# Specification: what statements do, in C and in Rust

A small reader of Rust statements, and the runs of C statements (C11, section 6.8) and of Rust
statements.  What single expressions and declarations do to the state is a parameter of both.  Scopes are
not modelled.
-/

namespace CMacro.Spec

/-! ## Rust statements -/

/-- A Rust statement. -/
inductive RStmt
  | empty
  | leaf (e : RExpr)
  | decl (isStatic : Bool) (name ty : List RTok) (e : RExpr)
  | bind (name : Str) (e : RExpr)
  | block (ss : List RStmt)
  | ite (c : RExpr) (t f : List RStmt)
  | loop (ss : List RStmt)
  | brk
  | cont
  | ret

/-- The end of a statement: a semicolon, or the end of the block. -/
def rEnd : List RTok → Option (List RTok)
  | [] => some []
  | .punct p :: ts => if p = c!";" then some ts else if p = c!"}" then some (.punct p :: ts) else none
  | _ => none

/-- A name in a declaration. -/
def rName : List RTok → Option (List RTok × List RTok)
  | .punct p :: .id x :: ts => if p = c!"$" then some ([.punct p, .id x], ts) else none
  | .id x :: ts => if x ∈ rustKeywords then none else some ([.id x], ts)
  | _ => none

/-- A declaration behind `let` or `static`: `mut name : type = value ;`, or `name = value ;`. -/
def rDecl (n : Nat) (s : Bool) (ts : List RTok) : Option (RStmt × List RTok) :=
  match ts with
  | .id m :: ts =>
    if m = c!"mut" then
      match rName ts with
      | some (x, .punct p :: ts) =>
        if p = c!":" then
          match rTy ts with
          | some (ty, .punct q :: ts) =>
            if q = c!"=" then
              match rExpr n 14 ts with
              | some (e, .punct r :: ts) => if r = c!";" then some (.decl s x ty e, ts) else none
              | _ => none
            else none
          | _ => none
        else none
      | _ => none
    else if s ∨ m ∈ rustKeywords then none
    else match ts with
      | .punct q :: ts =>
        if q = c!"=" then
          match rExpr n 14 ts with
          | some (e, .punct r :: ts) => if r = c!";" then some (.bind m e, ts) else none
          | _ => none
        else none
      | _ => none
  | _ => none

/-- An expression as a statement. -/
def rLeaf (n : Nat) (ts : List RTok) : Option (RStmt × List RTok) :=
  match rExpr n 14 ts with
  | some (e, rest) => (rEnd rest).map fun rest => (.leaf e, rest)
  | none => none

/-- A jump: `break`, `continue` or `return`. -/
def rJump (s : RStmt) (ts : List RTok) : Option (RStmt × List RTok) := (rEnd ts).map fun rest => (s, rest)

mutual
/-- One statement.  A block, `if` or `loop` at the beginning of a statement is a statement of its own.  The first
argument bounds the depth of calls. -/
def rStmt : Nat → List RTok → Option (RStmt × List RTok)
  | 0, _ => none
  | n + 1, .punct p :: ts =>
    if p = c!";" then some (.empty, ts)
    else if p = c!"{" then (rBody n ts).map fun (ss, rest) => (.block ss, rest)
    else rLeaf n (.punct p :: ts)
  | n + 1, .id x :: ts =>
    if x = c!"if" then
      match rExpr n 14 ts with
      | some (c, .punct p :: ts) =>
        if p = c!"{" then
          match rBody n ts with
          | none => none
          | some (t, .id e :: .punct q :: rest) =>
            if e = c!"else" ∧ q = c!"{" then (rBody n rest).map fun (f, rest) => (.ite c t f, rest)
            else some (.ite c t [], .id e :: .punct q :: rest)
          | some (t, rest) => some (.ite c t [], rest)
        else none
      | _ => none
    else if x = c!"loop" then
      match ts with
      | .punct p :: ts => if p = c!"{" then (rBody n ts).map fun (ss, rest) => (.loop ss, rest) else none
      | _ => none
    else if x = c!"let" then rDecl n false ts
    else if x = c!"static" then rDecl n true ts
    else if x = c!"break" then rJump .brk ts
    else if x = c!"continue" then rJump .cont ts
    else if x = c!"return" then rJump .ret ts
    else rLeaf n (.id x :: ts)
  | n + 1, ts => rLeaf n ts
/-- Statements up to and including the closing brace. -/
def rBody : Nat → List RTok → Option (List RStmt × List RTok)
  | 0, _ => none
  | n + 1, ts =>
    if ts.head? = some (.punct c!"}") then some ([], ts.tail)
    else match rStmt n ts with
      | none => none
      | some (s, rest) => (rBody n rest).map fun (ss, rest) => (s :: ss, rest)
end

/-- All tokens, as statements. -/
def rustStmts (ts : List RTok) : Option (List RStmt) :=
  match rBody (4 * ts.length + 4) (ts ++ [.punct c!"}"]) with
  | some (ss, []) => some ss
  | _ => none

/-! ## Runs -/

/-- How a statement ends. -/
inductive Out
  | normal
  | brk
  | cont
  | ret
  deriving DecidableEq

/-- What expression statements, declarations and conditions of C do. -/
structure CMeaning (σ : Type) where
  leaf : Stmt → σ → σ → Prop
  cond : Expr → σ → Bool → σ → Prop

/-- What those of Rust do. -/
structure RMeaning (σ : Type) where
  leaf : RExpr → σ → σ → Prop
  decl : Bool → List RTok → List RTok → RExpr → σ → σ → Prop
  bind : Str → RExpr → σ → σ → Prop
  cond : RExpr → σ → Bool → σ → Prop

/-- The jump statements of C; the code has no tree of its own for them. -/
def jumpOf : Stmt → Option Out
  | .expr (.var (.plain x)) => if x = c!"break" then some .brk else if x = c!"continue" then some .cont else if x = c!"return" then some .ret else none
  | _ => none

/-- Statements that are neither compound nor jumps. -/
def isLeaf : Stmt → Bool
  | .block _ => false
  | .ite _ _ _ => false
  | .doWhile _ _ => false
  | s => (jumpOf s).isNone

mutual
/-- The runs of a C statement. -/
inductive CRun {σ : Type} (M : CMeaning σ) : Stmt → σ → Out → σ → Prop
  | leaf {s a b} : isLeaf s = true → M.leaf s a b → CRun M s a .normal b
  | jump {s o a} : jumpOf s = some o → CRun M s a o a
  | block {ss a o b} : CRuns M ss a o b → CRun M (.block ss) a o b
  | iteTrue {c t f a b o d} : M.cond c a true b → CRuns M t b o d → CRun M (.ite c t f) a o d
  | iteFalse {c t f a b o d} : M.cond c a false b → CRuns M f b o d → CRun M (.ite c t f) a o d
  | doBreak {ss c a b} : CRuns M ss a .brk b → CRun M (.doWhile ss c) a .normal b
  | doReturn {ss c a b} : CRuns M ss a .ret b → CRun M (.doWhile ss c) a .ret b
  | doEnd {ss c a o b d} : CRuns M ss a o b → o = .normal ∨ o = .cont → M.cond c b false d → CRun M (.doWhile ss c) a .normal d
  | doAgain {ss c a o b d o' e} : CRuns M ss a o b → o = .normal ∨ o = .cont → M.cond c b true d → CRun M (.doWhile ss c) d o' e →
      CRun M (.doWhile ss c) a o' e
/-- The runs of statements one after the other. -/
inductive CRuns {σ : Type} (M : CMeaning σ) : List Stmt → σ → Out → σ → Prop
  | nil {a} : CRuns M [] a .normal a
  | cons {s ss a b o d} : CRun M s a .normal b → CRuns M ss b o d → CRuns M (s :: ss) a o d
  | stop {s ss a b o} : CRun M s a o b → o ≠ .normal → CRuns M (s :: ss) a o b
end

mutual
/-- The runs of a Rust statement. -/
inductive RRun {σ : Type} (M : RMeaning σ) : RStmt → σ → Out → σ → Prop
  | empty {a} : RRun M .empty a .normal a
  | leaf {e a b} : M.leaf e a b → RRun M (.leaf e) a .normal b
  | decl {s x ty e a b} : M.decl s x ty e a b → RRun M (.decl s x ty e) a .normal b
  | bind {x e a b} : M.bind x e a b → RRun M (.bind x e) a .normal b
  | block {ss a o b} : RRuns M ss a o b → RRun M (.block ss) a o b
  | iteTrue {c t f a b o d} : M.cond c a true b → RRuns M t b o d → RRun M (.ite c t f) a o d
  | iteFalse {c t f a b o d} : M.cond c a false b → RRuns M f b o d → RRun M (.ite c t f) a o d
  | loopBreak {ss a b} : RRuns M ss a .brk b → RRun M (.loop ss) a .normal b
  | loopReturn {ss a b} : RRuns M ss a .ret b → RRun M (.loop ss) a .ret b
  | loopAgain {ss a o b o' d} : RRuns M ss a o b → o = .normal ∨ o = .cont → RRun M (.loop ss) b o' d → RRun M (.loop ss) a o' d
  | brk {a} : RRun M .brk a .brk a
  | cont {a} : RRun M .cont a .cont a
  | ret {a} : RRun M .ret a .ret a
/-- The runs of statements one after the other. -/
inductive RRuns {σ : Type} (M : RMeaning σ) : List RStmt → σ → Out → σ → Prop
  | nil {a} : RRuns M [] a .normal a
  | cons {s ss a b o d} : RRun M s a .normal b → RRuns M ss b o d → RRuns M (s :: ss) a o d
  | stop {s ss a b o} : RRun M s a o b → o ≠ .normal → RRuns M (s :: ss) a o b
end

/-! ## Statements with corresponding parts -/

mutual
/-- The leaves of a statement. -/
def leavesOf : Stmt → List Stmt
  | .block ss => leavesOfAll ss
  | .ite _ t f => leavesOfAll t ++ leavesOfAll f
  | .doWhile b _ => leavesOfAll b
  | s => [s]
/-- The leaves of statements. -/
def leavesOfAll : List Stmt → List Stmt
  | [] => []
  | s :: ss => leavesOf s ++ leavesOfAll ss
end

mutual
/-- The conditions of a statement. -/
def condsOf : Stmt → List Expr
  | .block ss => condsOfAll ss
  | .ite c t f => c :: (condsOfAll t ++ condsOfAll f)
  | .doWhile b c => condsOfAll b ++ [c]
  | _ => []
/-- The conditions of statements. -/
def condsOfAll : List Stmt → List Expr
  | [] => []
  | s :: ss => condsOf s ++ condsOfAll ss
end

mutual
/-- A `continue` stands in a `do … while`. -/
def continuesDo : Stmt → Prop
  | .block ss => continuesDoAny ss
  | .ite _ t f => continuesDoAny t ∨ continuesDoAny f
  | .doWhile b _ => .expr (.var (.plain c!"continue")) ∈ leavesOfAll b
  | _ => False
/-- One in some statement. -/
def continuesDoAny : List Stmt → Prop
  | [] => False
  | s :: ss => continuesDo s ∨ continuesDoAny ss
end

/-- The Rust statements of a C statement that is neither compound nor a jump. -/
inductive LeafText (P : PCtx) : Stmt → List RStmt → Prop
  | expr {e t} : RustTree P e t → Separated e → beginsBlock e = false → LeafText P (.expr e) [.leaf t]
  | assign {l op o r t u} : (op, o) ∈ blockOps → isTarget l = true → RustTree P l t → RustTree P r u → Separated l → Separated r →
      LeafText P (.expr (.bin l op r)) [.block [.leaf (.bin o t u), .leaf t], .empty]
  | inc {e t} : isTarget e = true → RustTree P e t → Separated e →
      LeafText P (.expr (.un .inc e)) [.block [.leaf (.bin c!"+=" t (.num 1)), .leaf t], .empty]
  | dec {e t} : isTarget e = true → RustTree P e t → Separated e →
      LeafText P (.expr (.un .dec e)) [.block [.leaf (.bin c!"-=" t (.num 1)), .leaf t], .empty]
  | postInc {e t} : isTarget e = true → RustTree P e t → Separated e →
      LeafText P (.expr (.un .postInc e)) [.block [.bind c!"prev" t, .leaf (.bin c!"+=" t (.num 1)), .leaf (.name [.id c!"prev"])], .empty]
  | postDec {e t} : isTarget e = true → RustTree P e t → Separated e →
      LeafText P (.expr (.un .postDec e)) [.block [.bind c!"prev" t, .leaf (.bin c!"-=" t (.num 1)), .leaf (.name [.id c!"prev"])], .empty]
  | plain {ty x e s t} : TypeText (ty.toks P) → x ∉ rustKeywords → RustTree P e t → Separated e →
      LeafText P (.varDecl ⟨ty, .plain x, e, s⟩) [.decl s [.id x] (ty.toks P) t]
  | metavar {ty i x e s t} : TypeText (ty.toks P) → P.L.argNames[i]? = some x → x ≠ c!"..." → P.asMacro = true → RustTree P e t → Separated e →
      LeafText P (.varDecl ⟨ty, .arg i, e, s⟩) [.decl s [.punct c!"$", .id x] (ty.toks P) t]

/-- The parts of a C statement and the parts of what is generated for it do the same.  `f` generates code for
expressions. -/
structure SameParts {σ : Type} (P : PCtx) (f : Expr → LState → Fin Expr) (Mc : CMeaning σ) (Mr : RMeaning σ) (s : Stmt) : Prop where
  leaf : ∀ l ∈ leavesOf s, isLeaf l = true → ∀ st l' st', l.finish P.C f st = (l', st', .ok ()) →
    ∃ rs, LeafText P l' rs ∧ ∀ a o b, RRuns Mr rs a o b ↔ o = .normal ∧ Mc.leaf l a b
  cond : ∀ c ∈ condsOf s, ∀ st c' st' ty, finishCondition f c st = ⟨c', st', .ok ty⟩ →
    ∃ t, RustTree P c' t ∧ Separated c' ∧ ∀ a v b, Mr.cond t a v b ↔ Mc.cond c a v b
  jump : ∀ x ∈ [c!"break", c!"continue", c!"return"], P.C.resolveEnumVariant x = none

end CMacro.Spec
