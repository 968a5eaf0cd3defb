import Verif.Spec.Lex

/-!
# Specification: the contents of string and character literals

C11 6.4.4.4 and 6.4.5.  Nothing here refers to the parsers; UTF-8 is
`String.utf8EncodeChar` of the Lean core library.
-/

namespace CMacro.Spec

/-- One element of a literal: a character written as itself, a simple, octal or hexadecimal
escape with its code, or a universal character name. -/
inductive Elem
  | raw (c : Char)
  | code (n : Nat)
  | ucn (c : Char)
  deriving DecidableEq

/-- Simple escapes (with the common extension `\e`). -/
def simpleEscapes : List (Char × Nat) :=
  [('a', 7), ('b', 8), ('e', 27), ('f', 12), ('n', 10), ('r', 13), ('t', 9), ('v', 11),
   ('\\', 92), ('\'', 39), ('"', 34), ('?', 63)]

/-- The text does not go on with a digit of the base. -/
def NoDigit (base : Nat) (s : Str) : Prop := ∀ c r d, s = c :: r → ¬ Digit base d c

/-- `Escape s e rest`: `s` is an escape denoting `e`, when followed by `rest`. -/
inductive Escape : Str → Elem → Str → Prop
  | simple {k n rest} : (k, n) ∈ simpleEscapes → Escape ['\\', k] (.code n) rest
  | octal {ds s rest} : Digits 8 ds s → s ≠ [] → s.length ≤ 3 → (s.length = 3 ∨ NoDigit 8 rest) →
      Escape ('\\' :: s) (.code (positional 8 ds)) rest
  | hex {ds s rest} : Digits 16 ds s → s ≠ [] → NoDigit 16 rest →
      Escape ('\\' :: 'x' :: s) (.code (positional 16 ds)) rest
  | ucn4 {ds s rest} {c : Char} : Digits 16 ds s → s.length = 4 → positional 16 ds = c.toNat →
      Escape ('\\' :: 'u' :: s) (.ucn c) rest
  | ucn8 {ds s rest} {c : Char} : Digits 16 ds s → s.length = 8 → positional 16 ds = c.toNat →
      Escape ('\\' :: 'U' :: s) (.ucn c) rest

/-- The text between the double quotes of a string literal, and its elements; `ok` restricts
the spelling of escapes. -/
inductive StrText (ok : Str → Prop) : Str → List Elem → Prop
  | nil : StrText ok [] []
  | raw {c s es} : c ≠ '\\' → c ≠ '"' → c ≠ '\n' → StrText ok s es →
      StrText ok (c :: s) (.raw c :: es)
  | esc {t e s es} : Escape t e s → ok t → StrText ok s es → StrText ok (t ++ s) (e :: es)

/-- No restriction on escapes. -/
def AnyEsc (_ : Str) : Prop := True

/-- A hexadecimal escape with exactly two digits, or another escape. -/
def TwoHex (s : Str) : Prop := ∀ t, s = '\\' :: 'x' :: t → t.length = 2

/-- The text between the quotes of a character literal. -/
inductive ChrText : Str → Elem → Prop
  | raw {c} : c ≠ '\\' → c ≠ '\'' → c ≠ '\n' → ChrText [c] (.raw c)
  | esc {t e} : Escape t e [] → ChrText t e

/-- The number an element stands for. -/
def Elem.num : Elem → Nat
  | .raw c => c.toNat
  | .code n => n
  | .ucn c => c.toNat

/-- The bytes of an element in an ordinary or `u8` literal. -/
def Elem.bytes : Elem → List UInt8
  | .raw c => String.utf8EncodeChar c
  | .code n => [UInt8.ofNat n]
  | .ucn c => String.utf8EncodeChar c

/-- The element stands for a character: not an octal or hexadecimal escape beyond ASCII. -/
def Elem.IsChar : Elem → Prop
  | .code n => n < 128
  | _ => True

/-- The character of an element. -/
def Elem.chr : Elem → Char
  | .raw c => c
  | .code n => Char.ofNat n
  | .ucn c => c

end CMacro.Spec
