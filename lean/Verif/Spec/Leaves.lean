import Verif.Model.Ast

/-!
# What a body says, word by word

The leaves of a syntax tree are its names, parameters and literals from left to right.  `Reads` says
that a list of leaves contains everything a list of tokens says, in order: only punctuation, comments
and keywords may be left out.
-/

namespace CMacro.Spec

/-- A name, a parameter, a number, a character, or one unit (byte or wide character) of a string. -/
inductive Leaf
  | arg (i : Nat)
  | name (s : Str)
  | int (n : LitInt)
  | float (f : LitFloat)
  | char (c : Nat)
  | unit (n : Nat)

/-- The words that say something about their neighbours only: type words, literal prefixes, words of
statements. -/
def keywords : List Str :=
  [c!"const", c!"volatile", c!"unsigned", c!"signed", c!"short", c!"long", c!"int", c!"char", c!"void", c!"bool", c!"float",
   c!"double", c!"struct", c!"sizeof", c!"u8", c!"u", c!"U", c!"L", c!"static", c!"if", c!"else", c!"do", c!"while",
   c!"asm", c!"__asm", c!"__asm__", c!"inline", c!"goto"]

/-- The words that introduce inline assembly. -/
def asmWords : List Str := [c!"asm", c!"__asm", c!"__asm__"]

/-- The units of a string literal: bytes, in UTF-8 if it is given as text, or wide characters. -/
def units : LitString → List Nat
  | .ordinary bs => bs.map UInt8.toNat
  | .utf8 s | .utf16 s | .utf32 s => (s.flatMap String.utf8EncodeChar).map UInt8.toNat
  | .wide ws => ws

/-- The character of a character literal. -/
def charValue : LitChar → Nat
  | .ordinary c | .utf8 c | .utf16 c | .utf32 c | .wide c => c

/-- `A` is whether the text contains inline assembly: its strings (templates, constraints, clobbers)
are then read in another way. -/
inductive Reads (A : Prop) : List MacroToken → List Leaf → Prop
  | nil : Reads A [] []
  | punct {p ts ls} : Reads A ts ls → Reads A (.punct p :: ts) ls
  | comment {c ts ls} : Reads A ts ls → Reads A (.comment c :: ts) ls
  | keyword {k ts ls} : k ∈ keywords → Reads A ts ls → Reads A (.ident k :: ts) ls
  | asm {s ts ls} : A → Reads A ts ls → Reads A (.lit (.string s) :: ts) ls
  | arg {i ts ls} : Reads A ts ls → Reads A (.arg i :: ts) (.arg i :: ls)
  | name {id ts ls} : Reads A ts ls → Reads A (.ident id :: ts) (.name id :: ls)
  /-- A continuation such as `12ab` may be cut into pieces. -/
  | cont {pieces : List Str} {ts ls} : Reads A ts ls → Reads A (.identCont pieces.flatten :: ts) (pieces.map .name ++ ls)
  | int {n ts ls} : Reads A ts ls → Reads A (.lit (.int n) :: ts) (.int n :: ls)
  | float {f ts ls} : Reads A ts ls → Reads A (.lit (.float f) :: ts) (.float f :: ls)
  | char {c ts ls} : Reads A ts ls → Reads A (.lit (.char c) :: ts) (.char (charValue c) :: ls)
  | string {s ts ls} : Reads A ts ls → Reads A (.lit (.string s) :: ts) ((units s).map .unit ++ ls)

/-- The leaf of a part of a pasted name; a number is the digits it is written with. -/
def contLeaf : IdentCont → Leaf
  | .arg i => .arg i
  | .plain id => .name id
  | .int n => .name (Nat.toDigits 10 n.value.toNat)

/-- The leaves of a name. -/
def nameLeaves : IdentExpr → List Leaf
  | .arg i => [.arg i]
  | .plain id => [.name id]
  | .concat ids => ids.map contLeaf

/-- The leaves of a type. -/
def tyLeaves : Ty → List Leaf
  | .builtIn _ => []
  | .ident name _ => nameLeaves name
  | .path _ segments => segments.map .name
  | .ptr t => tyLeaves t
  | .qualified t _ => tyLeaves t

/-- The leaves of a literal. -/
def litLeaves : Lit → List Leaf
  | .char c => [.char (charValue c)]
  | .string s => (units s).map .unit
  | .float f => [.float f]
  | .int n => [.int n]

mutual
/-- The leaves of an expression. -/
def exprLeaves : Expr → List Leaf
  | .var name => nameLeaves name
  | .call name args => nameLeaves name ++ exprsLeaves args
  | .cast ty e => tyLeaves ty ++ exprLeaves e
  | .lit l => litLeaves l
  | .stringify name => nameLeaves name
  | .concatStr parts => exprsLeaves parts
  | .sizeOf ty => tyLeaves ty
  | .un _ e => exprLeaves e
  | .bin lhs _ rhs => exprLeaves lhs ++ exprLeaves rhs
  | .ternary c t f => exprLeaves c ++ (exprLeaves t ++ exprLeaves f)
/-- The leaves of expressions. -/
def exprsLeaves : List Expr → List Leaf
  | [] => []
  | e :: es => exprLeaves e ++ exprsLeaves es
end

/-- The leaves of inline assembly: its operands. -/
def asmLeaves (a : Asm) : List Leaf :=
  a.outputs.flatMap (fun o => exprLeaves o.2.2) ++ a.inputs.flatMap fun o => exprLeaves o.2

mutual
/-- The leaves of a statement. -/
def stmtLeaves : Stmt → List Leaf
  | .asm a => asmLeaves a
  | .expr e => exprLeaves e
  | .fnDecl f => tyLeaves f.retTy ++ (nameLeaves f.name ++ f.args.flatMap fun a => tyLeaves a.1 ++ nameLeaves a.2)
  | .varDecl d => tyLeaves d.ty ++ (nameLeaves d.name ++ exprLeaves d.rhs)
  | .block ss => stmtsLeaves ss
  | .ite c t f => exprLeaves c ++ (stmtsLeaves t ++ stmtsLeaves f)
  | .doWhile b c => stmtsLeaves b ++ exprLeaves c
/-- The leaves of statements. -/
def stmtsLeaves : List Stmt → List Leaf
  | [] => []
  | s :: ss => stmtLeaves s ++ stmtsLeaves ss
end

/-- The leaves of a macro body. -/
def bodyLeaves : MacroBody → List Leaf
  | .stmt s => stmtLeaves s
  | .expr e => exprLeaves e

end CMacro.Spec
