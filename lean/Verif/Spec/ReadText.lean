import Verif.Spec.Text

/-!
# Specification: the string and character literals the library reads, and as what

Unlike `Spec.Escape`, which is the grammar of C, this grammar has exactly two digits in a
hexadecimal escape, admits `\X`, and gives a universal character name as a number, which need
not be the number of a character.
-/

namespace CMacro.Spec

/-- `EscRead t n r`: the text `t`, when followed by `r`, is an escape with the number `n`. -/
inductive EscRead : Str → Nat → Str → Prop
  | simple {k n r} : (k, n) ∈ simpleEscapes → EscRead ['\\', k] n r
  | octal {ds s r} : Digits 8 ds s → s ≠ [] → s.length ≤ 3 → (s.length = 3 ∨ NoDigit 8 r) →
      EscRead ('\\' :: s) (positional 8 ds) r
  | hex {x ds s r} : x = 'x' ∨ x = 'X' → Digits 16 ds s → s.length = 2 →
      EscRead ('\\' :: x :: s) (positional 16 ds) r
  | ucn4 {ds s r} : Digits 16 ds s → s.length = 4 → EscRead ('\\' :: 'u' :: s) (positional 16 ds) r
  | ucn8 {ds s r} : Digits 16 ds s → s.length = 8 → EscRead ('\\' :: 'U' :: s) (positional 16 ds) r

/-- The text between the quotes of a string and its units, given the units of a character that
stands for itself and of an escape. -/
inductive TextRead {α : Type} (raw : Char → List α) (esc : Nat → List α → Prop) :
    Str → List α → Prop
  | nil : TextRead raw esc [] []
  | raw {c s us} : c ≠ '\\' → c ≠ '"' → c ≠ '\n' → TextRead raw esc s us →
      TextRead raw esc (c :: s) (raw c ++ us)
  | esc {t n s u us} : EscRead t n s → esc n u → TextRead raw esc s us →
      TextRead raw esc (t ++ s) (u ++ us)

/-- The bytes of an escape in ordinary and `u8` strings: one byte for a number below 256,
otherwise the UTF-8 encoding of the character. -/
inductive EscBytes : Nat → List UInt8 → Prop
  | byte {n} : n < 256 → EscBytes n [UInt8.ofNat n]
  | char {c : Char} : 256 ≤ c.toNat → EscBytes c.toNat (String.utf8EncodeChar c)

/-- The UTF-16 encoding of a character. -/
def encode16 (c : Char) : List Nat :=
  if c.toNat < 0x10000 then [c.toNat]
  else [(c.toNat - 0x10000) / 0x400 + 0xD800, (c.toNat - 0x10000) % 0x400 + 0xDC00]

/-- The units of an escape in `u` strings. -/
inductive EscUnits16 : Nat → List Nat → Prop
  | unit {n} : n < 0x10000 → EscUnits16 n [n]
  | char {c : Char} : 0x10000 ≤ c.toNat → EscUnits16 c.toNat (encode16 c)

/-- The characters of an escape in `U` strings. -/
inductive EscChar : Nat → List Char → Prop
  | char {c : Char} : EscChar c.toNat [c]

/-- The text between the quotes of a character literal, and its number. -/
inductive CharRead : Str → Nat → Prop
  | raw {c} : c ≠ '\\' → c ≠ '\'' → c ≠ '\n' → CharRead [c] c.toNat
  | esc {t n} : EscRead t n [] → CharRead t n

end CMacro.Spec
