import Verif.Model.ParseTy

/-!
# The expression parser

Model of the parsing half of /repo/src/ast/expr.rs and of /repo/src/ast/stringify.rs.

The Rust functions call each other recursively.  Here the levels take the parsers that are
called after at least one token has been consumed as a record `Rec`, and `tie` closes the
recursion with a depth bound; `Verif.Proofs.ParseFuel` shows that the bound used by
`parseExpr` never matters.
-/

namespace CMacro
open Parser

/-- The parsers called recursively after consuming a token: `parse_term_prec2`,
`parse_term_prec13` and `parse` (/repo/src/ast/expr.rs:151,287,338). -/
structure Rec where
  prec2 : TParser Expr
  prec13 : TParser Expr
  expr : TParser Expr

/-- /repo/src/ast/stringify.rs:30-38, `Stringify::parse`. -/
def parseStringify : TParser Expr :=
  preceded (terminated (punct c!"#") «meta»)
    (or (map macroArg fun i => .stringify (.arg i)) (map macroId fun id => .stringify (.plain id)))

/-- /repo/src/ast/expr.rs:48-51, `parse_part`. -/
def concatPart (E : Env) : TParser Expr :=
  or (or (map parseLitString fun s => .lit (.string s)) parseStringify)
    (map (parseConcatIdent E) .var)

/-- The fold of `parse_concat_string` (/repo/src/ast/expr.rs:58-64). -/
def Expr.pushPart : Expr → Expr → Expr
  | .concatStr ps, e => .concatStr (ps ++ [e])
  | acc, e => .concatStr [acc, e]

/-- /repo/src/ast/expr.rs:47-66, `Expr::parse_concat_string`. -/
def parseConcatString (E : Env) : TParser Expr := fun i =>
  match concatPart E i with
  | none => none
  | some (s, r) =>
    map (many0 (preceded «meta» (concatPart E))) (fun ps => ps.foldl Expr.pushPart s) r

/-- /repo/src/ast/expr.rs:68-76, `Expr::parse_factor`. -/
def parseFactor (E : Env) (R : Rec) : TParser Expr :=
  or (map (preceded (keyword c!"sizeof") (parenthesized (parseTy E))) .sizeOf) <|
  or (map parseLitChar fun c => .lit (.char c)) <|
  or (parseConcatString E) <|
  or (map parseLit .lit) (parenthesized R.expr)

/-- /repo/src/ast/expr.rs:82-87, `Access`. -/
inductive Access
  | fn (args : List Expr)
  | field (name : IdentExpr) (deref : Bool)
  | array (index : Expr)
  | post (op : UnOp)

/-- /repo/src/ast/expr.rs:92-108, one postfix access. -/
def parseAccess (E : Env) (R : Rec) : TParser Access :=
  preceded «meta» <|
  or (map (parenthesized (sepList0 (delimited «meta» (punct c!",") «meta») R.expr)) .fn) <|
  or (map (preceded (terminated (punct c!".") «meta») (parseConcatIdent E)) fun f => .field f false) <|
  or (map (delimited (terminated (punct c!"[") «meta») R.expr (preceded «meta» (punct c!"]"))) .array) <|
  or (map (preceded (terminated (punct c!"->") «meta») (parseConcatIdent E)) fun f => .field f true) <|
  map (or (value .postInc (punct c!"++")) (value .postDec (punct c!"--"))) .post

/-- /repo/src/ast/expr.rs:110-146, the fold: the expression so far and whether it ended with a
postfix `++`/`--`. -/
def Expr.access : Option (Expr × Bool) → Access → Option (Expr × Bool)
  | none, _ => none
  | some (e, wasPost), a =>
    match e, a with
    | e, .post op => if wasPost then none else some (.un op e, true)
    | .var name, .fn args => some (.call name args, false)
    | e, .field f deref =>
      if wasPost && !deref then none
      else some (.bin (if deref then .un .deref e else e) .memberAccess (.var f), false)
    | e, .array index => if wasPost then none else some (.un .deref (.bin e .add index), false)
    | _, _ => none

/-- /repo/src/ast/expr.rs:78-149, `Expr::parse_term_prec1`. -/
def prec1 (E : Env) (R : Rec) : TParser Expr := fun i =>
  match parseFactor E R i with
  | none => none
  | some (e, r) =>
    mapOpt (many0 (parseAccess E R))
      (fun as => (as.foldl Expr.access (some (e, false))).map fun x => x.1) r

/-- /repo/src/ast/expr.rs:159-168, the prefix operators. -/
def prefixOp : TParser UnOp :=
  or (value .deref (punct c!"*")) <| or (value .addrOf (punct c!"&")) <|
  or (value .inc (punct c!"++")) <| or (value .dec (punct c!"--")) <|
  or (value .plus (punct c!"+")) <| or (value .minus (punct c!"-")) <|
  or (value .not (punct c!"!")) (value .comp (punct c!"~"))

/-- /repo/src/ast/expr.rs:151-177, `Expr::parse_term_prec2`. -/
def prec2 (E : Env) (R : Rec) : TParser Expr :=
  or (map (seq (parenthesized (parseTy E)) R.prec2) fun (t, e) => .cast t e) <|
  or (map (seq (terminated prefixOp «meta») R.prec2) fun (op, e) => .un op e)
    (prec1 E R)

/-- One left associative level: /repo/src/ast/expr.rs:179-194 and the functions after it. -/
def binLevel (sub : TParser Expr) (op : TParser BinOp) : TParser Expr := fun i =>
  match sub i with
  | none => none
  | some (t, r) =>
    map (many0 (seq (delimited «meta» op «meta») sub))
      (fun l => l.foldl (fun lhs (x : BinOp × Expr) => .bin lhs x.1 x.2) t) r

/-- /repo/src/ast/expr.rs:186. -/
def op3 : TParser BinOp :=
  or (value .mul (punct c!"*")) <| or (value .div (punct c!"/")) (value .rem (punct c!"%"))
/-- /repo/src/ast/expr.rs:201. -/
def op4 : TParser BinOp := or (value .add (punct c!"+")) (value .sub (punct c!"-"))
/-- /repo/src/ast/expr.rs:214. -/
def op5 : TParser BinOp := or (value .shl (punct c!"<<")) (value .shr (punct c!">>"))
/-- /repo/src/ast/expr.rs:229-234. -/
def op6 : TParser BinOp :=
  or (value .lt (punct c!"<")) <| or (value .lte (punct c!"<=")) <|
  or (value .gt (punct c!">")) (value .gte (punct c!">="))
/-- /repo/src/ast/expr.rs:249. -/
def op7 : TParser BinOp := or (value .eq (punct c!"==")) (value .neq (punct c!"!="))
/-- /repo/src/ast/expr.rs:261. -/
def op8 : TParser BinOp := value .bitAnd (punct c!"&")
/-- /repo/src/ast/expr.rs:271. -/
def op9 : TParser BinOp := value .bitXor (punct c!"^")
/-- /repo/src/ast/expr.rs:281. -/
def op10 : TParser BinOp := value .bitOr (punct c!"|")
/-- /repo/src/ast/expr.rs:315-327, the assignment operators. -/
def op14 : TParser BinOp :=
  or (value .assign (punct c!"=")) <| or (value .addAssign (punct c!"+=")) <|
  or (value .subAssign (punct c!"-=")) <| or (value .mulAssign (punct c!"*=")) <|
  or (value .divAssign (punct c!"/=")) <| or (value .remAssign (punct c!"%=")) <|
  or (value .shlAssign (punct c!"<<=")) <| or (value .shrAssign (punct c!">>=")) <|
  or (value .bitAndAssign (punct c!"&=")) <| or (value .bitXorAssign (punct c!"^="))
    (value .bitOrAssign (punct c!"|="))

/-- /repo/src/ast/expr.rs:179-194, `parse_term_prec3`. -/
def prec3 (E : Env) (R : Rec) : TParser Expr := binLevel (prec2 E R) op3
/-- /repo/src/ast/expr.rs:196-207, `parse_term_prec4`. -/
def prec4 (E : Env) (R : Rec) : TParser Expr := binLevel (prec3 E R) op4
/-- /repo/src/ast/expr.rs:209-220, `parse_term_prec5`. -/
def prec5 (E : Env) (R : Rec) : TParser Expr := binLevel (prec4 E R) op5
/-- /repo/src/ast/expr.rs:222-242, `parse_term_prec6`. -/
def prec6 (E : Env) (R : Rec) : TParser Expr := binLevel (prec5 E R) op6
/-- /repo/src/ast/expr.rs:244-255, `parse_term_prec7`. -/
def prec7 (E : Env) (R : Rec) : TParser Expr := binLevel (prec6 E R) op7
/-- /repo/src/ast/expr.rs:257-265, `parse_term_prec8`. -/
def prec8 (E : Env) (R : Rec) : TParser Expr := binLevel (prec7 E R) op8
/-- /repo/src/ast/expr.rs:267-275, `parse_term_prec9`. -/
def prec9 (E : Env) (R : Rec) : TParser Expr := binLevel (prec8 E R) op9
/-- /repo/src/ast/expr.rs:277-285, `parse_term_prec10`. -/
def prec10 (E : Env) (R : Rec) : TParser Expr := binLevel (prec9 E R) op10

/-- /repo/src/ast/expr.rs:287-306, `parse_term_prec13`: the conditional operator. -/
def prec13 (E : Env) (R : Rec) : TParser Expr := fun i =>
  match prec10 E R i with
  | none => none
  | some (c, r) =>
    match delimited «meta» (punct c!"?") «meta» r with
    | none => some (c, r)
    | some (_, r) =>
      map (seq R.expr (preceded (delimited «meta» (punct c!":") «meta») R.prec13))
        (fun (t, f) => .ternary c t f) r

/-- /repo/src/ast/expr.rs:308-335, `parse_term_prec14`: assignment; the right operand is again
a `parse_term_prec14`. -/
def prec14 (E : Env) (R : Rec) : TParser Expr := fun i =>
  match prec13 E R i with
  | none => none
  | some (t, r) =>
    map (many0 (seq (delimited «meta» op14 «meta») R.expr))
      (fun l => l.foldl (fun lhs (x : BinOp × Expr) => .bin lhs x.1 x.2) t) r

/-- The recursive knot, with a bound on the call depth
(/repo/src/ast/expr.rs:338-340 and the functions it calls). -/
def tie (E : Env) : Nat → Rec
  | 0 => ⟨fun _ => none, fun _ => none, fun _ => none⟩
  | n + 1 => ⟨prec2 E (tie E n), prec13 E (tie E n), prec14 E (tie E n)⟩

/-- /repo/src/ast/expr.rs:338-340, `Expr::parse`. -/
def parseExpr (E : Env) : TParser Expr := fun i => (tie E (i.length + 1)).expr i

end CMacro
