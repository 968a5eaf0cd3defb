import Verif.Model.Literal

/-!
# Specification: spelling of identifiers, numbers, strings and characters

Nothing here refers to the parsers.
-/

namespace CMacro.Spec

/-- An identifier: starts with a start character or `_`, continues with continuation
characters. -/
def IsIdent (start cont : Char → Bool) : Str → Prop
  | [] => False
  | c :: cs => (start c = true ∨ c = '_') ∧ ∀ x ∈ cs, cont x = true

/-- `c` is the digit with value `d` in the given base (at most 16), in either letter case. -/
def Digit (base d : Nat) (c : Char) : Prop :=
  d < base ∧ ((d < 10 ∧ c.toNat = 48 + d) ∨
    (10 ≤ d ∧ d < 16 ∧ (c.toNat = 87 + d ∨ c.toNat = 55 + d)))

/-- `s` spells the digits `ds`, most significant first. -/
inductive Digits (base : Nat) : List Nat → Str → Prop
  | nil : Digits base [] []
  | cons {d ds c s} : Digit base d c → Digits base ds s → Digits base (d :: ds) (c :: s)

/-- The number written with the digits, most significant first. -/
def positional (base : Nat) : List Nat → Nat
  | [] => 0
  | d :: ds => d * base ^ ds.length + positional base ds

/-- Text in which characters may be written as universal character names: `Spells s t` says
that `s` denotes the characters `t`. -/
inductive Spells : Str → Str → Prop
  | nil : Spells [] []
  | char {c s t} : c ≠ '\\' → Spells s t → Spells (c :: s) (c :: t)
  | ucn4 {ds hs s t} {c : Char} : Digits 16 ds hs → ds.length = 4 → positional 16 ds = c.toNat →
      Spells s t → Spells ('\\' :: 'u' :: hs ++ s) (c :: t)
  | ucn8 {ds hs s t} {c : Char} : Digits 16 ds hs → ds.length = 8 → positional 16 ds = c.toNat →
      Spells s t → Spells ('\\' :: 'U' :: hs ++ s) (c :: t)

/-- `s` is an integer constant of C (with binary ones) without suffix, and `v` its value. -/
inductive IntConst : Str → Nat → Prop
  | dec {ds s} : Digits 10 ds s → s ≠ [] → s.head? ≠ some '0' → IntConst s (positional 10 ds)
  | oct {ds s} : Digits 8 ds s → IntConst ('0' :: s) (positional 8 ds)
  | hex {x ds s} : x = 'x' ∨ x = 'X' → Digits 16 ds s → s ≠ [] →
      IntConst ('0' :: x :: s) (positional 16 ds)
  | bin {x ds s} : x = 'b' ∨ x = 'B' → Digits 2 ds s → s ≠ [] →
      IntConst ('0' :: x :: s) (positional 2 ds)

/-- The integer suffixes of C, with the type each selects. -/
def intSuffixes : List (Str × Option BuiltInType) :=
  [(c!"", none),
   (c!"u", some .uInt), (c!"U", some .uInt),
   (c!"l", some .long), (c!"L", some .long),
   (c!"ul", some .uLong), (c!"uL", some .uLong), (c!"Ul", some .uLong), (c!"UL", some .uLong),
   (c!"lu", some .uLong), (c!"lU", some .uLong), (c!"Lu", some .uLong), (c!"LU", some .uLong),
   (c!"ll", some .longLong), (c!"LL", some .longLong),
   (c!"ull", some .uLongLong), (c!"uLL", some .uLongLong),
   (c!"Ull", some .uLongLong), (c!"ULL", some .uLongLong),
   (c!"llu", some .uLongLong), (c!"llU", some .uLongLong),
   (c!"LLu", some .uLongLong), (c!"LLU", some .uLongLong),
   (c!"z", some .sSizeT), (c!"Z", some .sSizeT),
   (c!"uz", some .sizeT), (c!"uZ", some .sizeT), (c!"Uz", some .sizeT), (c!"UZ", some .sizeT),
   (c!"zu", some .sizeT), (c!"zU", some .sizeT), (c!"Zu", some .sizeT), (c!"ZU", some .sizeT)]

end CMacro.Spec
