import Verif.Model.Ident

/-!
# Preprocessing tokens

Model of the private `Token` type of /repo/src/macro_set/mod.rs and the public
`MacroToken` of /repo/src/macro_token/mod.rs.
-/

namespace CMacro
open Parser

/-- /repo/src/macro_token/mod.rs:18-31, `MacroToken` (public). -/
inductive MacroToken
  | arg (index : Nat)
  | ident (id : Str)
  | identCont (s : Str)
  | lit (l : Lit)
  | punct (p : Str)
  | comment (s : Str)
  deriving DecidableEq, Repr

/-- /repo/src/macro_set/mod.rs:399-420, `Token` (private). -/
inductive Token
  | nonRepl (t : Token)
  | macroArg (i : Nat)
  | varArgs
  | punct (p : Str)
  | ident (id : Str)
  | identCont (s : Str)
  | lit (l : Lit) (src : Str)
  | plain (s : Str)
  | comment (s : Str)
  | placemarker
  deriving DecidableEq, Repr

/-- /repo/src/macro_set/mod.rs:110-112, `is_comment`. -/
def isComment (s : Str) : Bool :=
  (c!"/*".isPrefixOf s && c!"*/".isSuffixOf s) || c!"//".isPrefixOf s

/-- /repo/src/macro_set/mod.rs:114-117, `is_whitespace`. -/
def isWhitespace (s : Str) : Bool :=
  let s := trim s
  s.isEmpty || isComment s

/-- /repo/src/macro_set/mod.rs:190-206, `Token::from_str`. -/
def Token.fromStr (E : Env) (s : Str) : Token :=
  if s = c!"__VA_ARGS__" then .varArgs
  else match identTryFrom E s with
  | some id => .ident id
  | none => match Lit.tryFrom s with
    | some l => .lit l s
    | none => match identContTryFrom E s with
      | some ic => .identCont ic
      | none => match punctTryFrom s with
        | some p => .punct p
        | none => match commentTryFrom s with
          | some c => .comment c
          | none => .plain s

/-- /repo/src/macro_set/mod.rs:119-157, `tokenize_arg_names`; `acc` is `arg_names`. -/
def tokenizeArgNamesGo (E : Env) : Bool → List Token → List Str → Res (List Token)
  | _, acc, [] => .ok acc
  | variadic, acc, s :: rest =>
    match Token.fromStr E s with
    | .ident id =>
      if variadic then .error (.err .invalidArgumentName)
      else if Token.ident id ∈ acc then .error (.err (.nonUniqueArgument id))
      else tokenizeArgNamesGo E variadic (acc ++ [.ident id]) rest
    | .punct p =>
      if p = c!"..." then
        if variadic then .error (.err (.nonUniqueArgument c!"..."))
        else tokenizeArgNamesGo E true (acc ++ [.punct p]) rest
      else .error (.err .invalidArgumentName)
    | .comment c => tokenizeArgNamesGo E variadic (acc ++ [.comment c]) rest
    | _ => .error (.err .invalidArgumentName)

/-- /repo/src/macro_set/mod.rs:119-157, `tokenize_arg_names`. -/
def tokenizeArgNames (E : Env) (names : List Str) : Res (List Token) :=
  tokenizeArgNamesGo E false [] names

/-- The filter of `tokenize` (/repo/src/macro_set/mod.rs:169). -/
def Token.isParam : Token → Bool
  | .punct _ => true
  | .ident _ => true
  | _ => false

/-- The position test of `tokenize` (/repo/src/macro_set/mod.rs:170). -/
def Token.isIdentNamed (t : Str) : Token → Bool
  | .ident id => id = t
  | _ => false

/-- /repo/src/macro_set/mod.rs:165-176, the closure of `tokenize`. -/
def tokenizeOne (E : Env) (argNames : List Token) (t : Str) : Token :=
  match (argNames.filter Token.isParam).findIdx? (Token.isIdentNamed t) with
  | some i => .macroArg i
  | none => Token.fromStr E t

/-- /repo/src/macro_set/mod.rs:159-178, `tokenize`. -/
def tokenize (E : Env) (argNames : List Token) (tokens : List Str) : List Token :=
  tokens.map (tokenizeOne E argNames)

/-- /repo/src/macro_set/mod.rs:180-187, `StringifyAction`. -/
inductive StringifyAction
  | keep
  | skip
  | append (s : Str)

/-- /repo/src/macro_set/mod.rs:208-232, `Token::stringify`. -/
def Token.stringify (nested : Bool) : Token → StringifyAction
  | .macroArg _ => .keep
  | .varArgs => if nested then .keep else .append c!"__VA_ARGS__"
  | .ident id => if (id = c!"__LINE__" ∨ id = c!"__FILE__") ∧ nested then .keep else .append id
  | .identCont s => .append s
  | .nonRepl t => t.stringify nested
  | .lit _ s => .append s
  | .plain s => .append s
  | .punct p => .append p
  | .comment _ => .skip
  | .placemarker => .skip

/-- /repo/src/macro_set/mod.rs:234-247, `Token::detokenize`; `n` is `arg_names.len()`. -/
def Token.detokenize (n : Nat) : Token → Res (Option MacroToken)
  | .macroArg i => .ok (some (.arg i))
  | .varArgs => if n = 0 then .error (.panic .detokVarArgs) else .ok (some (.arg (n - 1)))
  | .ident id => .ok (some (.ident id))
  | .identCont s => .ok (some (.identCont s))
  | .lit l _ => .ok (some (.lit l))
  | .plain s => .error (.err (.invalidToken s))
  | .punct p => .ok (some (.punct p))
  | .comment c => .ok (some (.comment c))
  | .nonRepl t => t.detokenize n
  | .placemarker => .ok none

/-- /repo/src/macro_set/mod.rs:387-389, `detokenize`. -/
def detokenize (n : Nat) : List Token → Res (List MacroToken)
  | [] => .ok []
  | t :: ts => do
    let m ← t.detokenize n
    let ms ← detokenize n ts
    .ok (m.toList ++ ms)

/-- Peel all `NonReplacable` layers (first two arms of `Token::concat`,
/repo/src/macro_set/mod.rs:251-252). -/
def Token.strip : Token → Token
  | .nonRepl t => t.strip
  | t => t

/-- The reclassification at the end of `Token::concat` (/repo/src/macro_set/mod.rs:333-341). -/
def reclassify (E : Env) (s : Str) : Token :=
  match identTryFrom E s with
  | some id => .ident id
  | none => match Lit.tryFrom s with
    | some l => .lit l s
    | none => match identContTryFrom E s with
      | some ic => .identCont ic
      | none => .plain s

/-- The spelling used by the general arm of `Token::concat`
(/repo/src/macro_set/mod.rs:314-326): identifiers, continuations, literals, plain. -/
def Token.pasteText : Token → Option Str
  | .ident s => some s
  | .identCont s => some s
  | .lit _ s => some s
  | .plain s => some s
  | _ => none

/-- Arms of `Token::concat` from /repo/src/macro_set/mod.rs:314-330 (the general arm and
the failing arms). -/
def concatGeneral (E : Env) (a b : Token) : Res Token :=
  match a.pasteText, b.pasteText with
  | some l, some r => .ok (reclassify E (l ++ r))
  | _, _ => match a, b with
    | .punct _, _ => .error (.err .invalidConcat)
    | _, .punct _ => .error (.err .invalidConcat)
    | _, _ => .error (.panic .concatUnreachable)

/-- /repo/src/macro_set/mod.rs:286-313, identifier followed by a literal. -/
def concatIdentLit (E : Env) (l : Str) (lt : Lit) (r : Str) : Res Token :=
  let pre : Bool := l = c!"u8" ∨ l = c!"u" ∨ l = c!"U" ∨ l = c!"L"
  match lt with
  | .string (.ordinary _) | .char (.ordinary _) =>
    if pre then
      match Lit.tryFrom (l ++ r) with
      | some lit => .ok (.lit lit (l ++ r))
      | none => .error (.panic .concatUnwrapLit)
    else .error (.err .invalidConcat)
  | .string _ | .char _ => .error (.err .invalidConcat)
  | .int _ => .ok (.ident (l ++ r))
  | .float _ =>
    if r.all E.xidContinue then
      match identTryFrom E (l ++ r) with
      | some id => .ok (.ident id)
      | none => .error (.panic .concatUnwrapIdent)
    else .error (.err .invalidConcat)

/-- /repo/src/macro_set/mod.rs:271-285, `.` followed by a number. -/
def concatPunctLit (l : Str) (lt : Lit) (r : Str) : Res Token :=
  if l = c!"." then
    match lt with
    | .string _ | .char _ => .error (.err .invalidConcat)
    | .int _ | .float _ =>
      match Lit.tryFrom (l ++ r) with
      | some lit => .ok (.lit lit (l ++ r))
      | none => .error (.err .invalidConcat)
  else .error (.err .invalidConcat)

/-- /repo/src/macro_set/mod.rs:249-342, `Token::concat` on tokens without
`NonReplacable` layers, arm by arm. -/
def concatCore (E : Env) (a b : Token) : Res Token :=
  match a, b with
  | .placemarker, rhs => .ok rhs
  | lhs, .placemarker => .ok lhs
  | .ident l, .ident r => .ok (.ident (l ++ r))
  | .ident l, .identCont r => .ok (.ident (l ++ r))
  | .punct l, .punct r => match punctConcat l r with
    | some p => .ok (.nonRepl (.punct p))
    | none => .error (.err .invalidConcat)
  | .lit (.string _) _, _ => .error (.err .invalidConcat)
  | .lit (.char _) _, _ => .error (.err .invalidConcat)
  | .punct l, .lit lt r => concatPunctLit l lt r
  | .ident l, .lit lt r => concatIdentLit E l lt r
  | a, b => concatGeneral E a b

/-- /repo/src/macro_set/mod.rs:249-342, `Token::concat`. -/
def Token.concat (E : Env) (a b : Token) : Res Token := concatCore E a.strip b.strip

/-- The separator rule of `stringify` (/repo/src/macro_set/mod.rs:366): tokens that never
get a blank before them. -/
def noSpaceBefore (s : Str) : Bool :=
  s = c!")" || s = c!"]" || s = c!"}" || s = c!"." || s = c!"," || s = c!"("

/-- The separator rule of `stringify` (/repo/src/macro_set/mod.rs:371): tokens that never
get a blank after them. -/
def noSpaceAfter (s : Str) : Bool := s = c!"(" || s = c!"[" || s = c!"{" || s = c!"."

/-- The loop of `stringify` (/repo/src/macro_set/mod.rs:353-374): returns the kept tokens
and the accumulated string. -/
def stringifyGo (nested : Bool) : Bool → List Token → Option Str → List Token →
    List Token × Option Str
  | _, kept, cur, [] => (kept, cur)
  | space, kept, cur, t :: ts =>
    match t.stringify nested with
    | .keep => stringifyGo nested space (kept ++ [.punct c!"#", t]) cur ts
    | .skip => stringifyGo nested space kept cur ts
    | .append s =>
      let c := cur.getD []
      let c := if !noSpaceBefore s && space then c ++ [' '] else c
      stringifyGo nested (!noSpaceAfter s) kept (some (c ++ s)) ts

/-- /repo/src/macro_set/mod.rs:345-385, `stringify`. -/
def stringify (E : Env) (nested : Bool) (tokens : List Token) : List Token :=
  let (kept, cur) := stringifyGo nested false [] none tokens
  let out := kept ++ match cur with
    | some s => [Token.lit (.string (.ordinary (utf8EncStr s))) (E.debugFmt s)]
    | none => []
  if out.isEmpty then [Token.lit (.string (.ordinary [])) c!"\"\""] else out

end CMacro
