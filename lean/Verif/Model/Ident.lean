import Verif.Model.Literal

/-!
# Identifiers, punctuation, comments

Model of /repo/src/ast/identifier.rs, /repo/src/ast/punctuation.rs,
/repo/src/ast/comment.rs.
-/

namespace CMacro
open Parser

/-- /repo/src/ast/identifier.rs:18-20, `is_identifier_start`. -/
def isIdentStart (E : Env) (c : Char) : Bool := E.xidStart c || c == '_'

/-- /repo/src/ast/identifier.rs:22-30, `is_identifier`. -/
def isIdentifier (E : Env) : Str → Bool
  | [] => false
  | c :: cs => isIdentStart E c && cs.all E.xidContinue

/-- The local `identifier_char` parser (/repo/src/ast/identifier.rs:54,111): a universal
character name or any character. -/
def identChar : Parser Char Char :=
  or (mapOpt (preceded (tag c!"\\") universalChar) charOfNat) (satisfy fun _ => true)

/-- First branch of `Identifier::parse_str` (/repo/src/ast/identifier.rs:46-52). -/
def identPlain (E : Env) : Parser Char Str
  | [] => none
  | c :: r => if isIdentStart E c then
      some (c :: r.takeWhile E.xidContinue, r.dropWhile E.xidContinue) else none

/-- Second branch of `Identifier::parse_str` (/repo/src/ast/identifier.rs:53-66). -/
def identEscaped (E : Env) : Parser Char Str :=
  map (seq (mapOpt identChar fun c => if isIdentStart E c then some c else none)
      (many0 (mapOpt identChar fun c => if E.xidContinue c then some c else none)))
    fun (c, cs) => c :: cs

/-- /repo/src/ast/identifier.rs:44-68, `Identifier::parse_str`. -/
def identParseStr (E : Env) : Parser Char Str := or (identPlain E) (identEscaped E)

/-- /repo/src/ast/identifier.rs:84-91, `Identifier::try_from(&str)`. -/
def identTryFrom (E : Env) (s : Str) : Option Str := (allConsuming (identParseStr E) s).map (·.1)

/-- /repo/src/ast/identifier.rs:105-123, `IdentifierContinue::parse_str`. -/
def identContParseStr (E : Env) : Parser Char Str :=
  or (takeWhile1 E.xidContinue)
    (many1 (mapOpt identChar fun c => if E.xidContinue c then some c else none))

/-- /repo/src/ast/identifier.rs:130-137, `IdentifierContinue::try_from(&str)`. -/
def identContTryFrom (E : Env) (s : Str) : Option Str :=
  (allConsuming (identContParseStr E) s).map (·.1)

/-- /repo/src/ast/punctuation.rs:87-91, the list of punctuators. -/
def punctTable : List Str :=
  [c!"[", c!"]", c!"(", c!")", c!"{", c!"}", c!".", c!"->", c!"++", c!"--", c!"&", c!"*", c!"+",
   c!"-", c!"~", c!"!", c!"/", c!"%", c!"<<", c!">>", c!"<", c!">",
   c!"<=", c!">=", c!"==", c!"!=", c!"^", c!"|", c!"&&", c!"||", c!"?", c!":", c!";", c!"...",
   c!"=", c!"*=", c!"/=", c!"%=", c!"+=", c!"-=", c!"<<=", c!">>=",
   c!"&=", c!"^=", c!"|=", c!",", c!"#", c!"##", c!"<:", c!":>", c!"<%", c!"%>", c!"%:", c!"%:%:"]

/-- /repo/src/ast/punctuation.rs:51-65, `Punctuation::try_from(&str)`: a punctuator,
possibly preceded by line continuations, which are dropped. -/
def punctTryFrom : Str → Option Str
  | '\\' :: '\n' :: s => punctTryFrom s
  | '\\' :: '\r' :: '\n' :: s => punctTryFrom s
  | s => if s ∈ punctTable then some s else none

/-- /repo/src/ast/punctuation.rs:14-48, `Punctuation::concat`. -/
def punctConcat : Str → Str → Option Str
  | c!"-", c!">" => some c!"->"
  | c!"+", c!"+" => some c!"++"
  | c!"-", c!"-" => some c!"--"
  | c!"<", c!"<" => some c!"<<"
  | c!">", c!">" => some c!">>"
  | c!"<", c!"=" => some c!"<="
  | c!">", c!"=" => some c!">="
  | c!"=", c!"=" => some c!"=="
  | c!"!", c!"=" => some c!"!="
  | c!"&", c!"&" => some c!"&&"
  | c!"|", c!"|" => some c!"||"
  | c!"*", c!"=" => some c!"*="
  | c!"/", c!"=" => some c!"/="
  | c!"%", c!"=" => some c!"%="
  | c!"+", c!"=" => some c!"+="
  | c!"-", c!"=" => some c!"-="
  | c!"<<", c!"=" => some c!"<<="
  | c!"<", c!"<=" => some c!"<<="
  | c!">>", c!"=" => some c!">>="
  | c!">", c!">=" => some c!">>="
  | c!"&", c!"=" => some c!"&="
  | c!"^", c!"=" => some c!"^="
  | c!"|", c!"=" => some c!"|="
  | c!"#", c!"#" => some c!"##"
  | c!"<", c!":" => some c!"<:"
  | c!":", c!">" => some c!":>"
  | c!"<", c!"%" => some c!"<%"
  | c!"%", c!">" => some c!"%>"
  | c!"%", c!":" => some c!"%:"
  | c!"%:", c!"%:" => some c!"%:%:"
  | _, _ => none

/-- nom `take_until("*/")`: the text before the first `*/`, which is not consumed
(/repo/src/ast/comment.rs:19). -/
def takeUntilEnd : Parser Char Str
  | [] => none
  | c :: r =>
    match c, r with
    | '*', '/' :: _ => some ([], c :: r)
    | _, _ => match takeUntilEnd r with
      | some (s, r') => some (c :: s, r')
      | none => none

/-- /repo/src/ast/comment.rs:15-22, `Comment::try_from(&str)`: `/* ... */` with no
earlier `*/`; the stored text is what is between. -/
def commentTryFrom (s : Str) : Option Str :=
  (allConsuming (delimited (tag c!"/*") takeUntilEnd (tag c!"*/")) s).map (·.1)

end CMacro
