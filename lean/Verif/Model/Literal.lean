import Verif.Model.Basic

/-!
# Literals

Model of /repo/src/ast/literal.rs and /repo/src/ast/literal/{char,float,int,string}.rs:
the literal data types and the parsers from text.
-/

namespace CMacro

/-- /repo/src/ast/ty.rs:19-62, `BuiltInType`. -/
inductive BuiltInType
  | float | double | longDouble | bool | char | sChar | uChar | char8T | char16T | char32T
  | short | uShort | int | uInt | long | uLong | longLong | uLongLong | sizeT | sSizeT | void
  deriving DecidableEq, Repr

/-- /repo/src/ast/literal/char.rs:45-76, `LitChar`.  `u8`, `u16`, `u32` payloads are `Nat`. -/
inductive LitChar
  | ordinary (c : Nat)
  | utf8 (c : Nat)
  | utf16 (c : Nat)
  | utf32 (c : Nat)
  | wide (c : Nat)
  deriving DecidableEq, Repr

/-- /repo/src/ast/literal/string.rs:35-66, `LitString`.  `Wide` words are `Nat`. -/
inductive LitString
  | ordinary (bytes : List UInt8)
  | utf8 (s : Str)
  | utf16 (s : Str)
  | utf32 (s : Str)
  | wide (ws : List Nat)
  deriving DecidableEq, Repr

/-- Symbolic `f32`/`f64` value: floating point arithmetic is not modelled, so a value
is the term describing which operations produced it (/repo/src/ast/literal/float.rs:85-243,
/repo/src/ast/expr.rs and /repo/src/ast/binary_expr.rs float folding). -/
inductive FVal
  | parse (text : Str)
  | ofInt (i : BitVec 128)
  | widen (v : FVal)
  | add (a b : FVal)
  | sub (a b : FVal)
  | mul (a b : FVal)
  | div (a b : FVal)
  | neg (a : FVal)
  deriving DecidableEq, Repr

/-- /repo/src/ast/literal/float.rs:45-52, `LitFloat`. -/
inductive LitFloat
  | float (v : FVal)
  | double (v : FVal)
  | longDouble (v : FVal)
  deriving DecidableEq, Repr

/-- /repo/src/ast/literal/int.rs:63-68, `LitInt`; `i128` is `BitVec 128`, read signed. -/
structure LitInt where
  value : BitVec 128
  suffix : Option BuiltInType
  deriving DecidableEq, Repr

/-- /repo/src/ast/literal.rs:31-40, `Lit`. -/
inductive Lit
  | char (c : LitChar)
  | string (s : LitString)
  | float (f : LitFloat)
  | int (i : LitInt)
  deriving DecidableEq, Repr

/-! ## Unicode encodings (Rust standard library) -/

/-- `char::from_u32` / `char::try_from(u32)`
(/repo/src/ast/literal/string.rs:78; /repo/src/ast/literal/char.rs:151). -/
def charOfNat (n : Nat) : Option Char := if n.isValidChar then some (Char.ofNat n) else none

/-- `char::encode_utf8` (/repo/src/ast/literal/string.rs:80). -/
def utf8Enc (c : Char) : List UInt8 :=
  let n := c.toNat
  if n < 0x80 then [UInt8.ofNat n]
  else if n < 0x800 then [UInt8.ofNat (0xC0 + n / 64), UInt8.ofNat (0x80 + n % 64)]
  else if n < 0x10000 then
    [UInt8.ofNat (0xE0 + n / 4096), UInt8.ofNat (0x80 + n / 64 % 64), UInt8.ofNat (0x80 + n % 64)]
  else
    [UInt8.ofNat (0xF0 + n / 262144), UInt8.ofNat (0x80 + n / 4096 % 64),
     UInt8.ofNat (0x80 + n / 64 % 64), UInt8.ofNat (0x80 + n % 64)]

/-- `str::as_bytes` (/repo/src/ast/literal/string.rs:85). -/
def utf8EncStr (s : Str) : List UInt8 := s.flatMap utf8Enc

/-- UTF-8 continuation byte `10xxxxxx` (/repo/src/ast/literal/string.rs:104-105). -/
def isCont (b : UInt8) : Bool := 0x80 ≤ b.toNat && b.toNat < 0xC0

/-- `str::from_utf8` / `String::from_utf8`: strict decoding (shortest form only, no
surrogates, at most U+10FFFF) (/repo/src/ast/literal/string.rs:104-105). -/
def utf8Dec : List UInt8 → Option Str
  | [] => some []
  | b0 :: r =>
    let n0 := b0.toNat
    if n0 < 0x80 then (utf8Dec r).map (Char.ofNat n0 :: ·)
    else if n0 < 0xC0 then none
    else if n0 < 0xE0 then
      match r with
      | b1 :: r => if isCont b1 then
          let n := (n0 - 0xC0) * 64 + (b1.toNat - 0x80)
          if 0x80 ≤ n then (utf8Dec r).map (Char.ofNat n :: ·) else none
        else none
      | _ => none
    else if n0 < 0xF0 then
      match r with
      | b1 :: b2 :: r => if isCont b1 && isCont b2 then
          let n := (n0 - 0xE0) * 4096 + (b1.toNat - 0x80) * 64 + (b2.toNat - 0x80)
          if 0x800 ≤ n ∧ n.isValidChar then (utf8Dec r).map (Char.ofNat n :: ·) else none
        else none
      | _ => none
    else if n0 < 0xF8 then
      match r with
      | b1 :: b2 :: b3 :: r => if isCont b1 && isCont b2 && isCont b3 then
          let n := (n0 - 0xF0) * 262144 + (b1.toNat - 0x80) * 4096 + (b2.toNat - 0x80) * 64
            + (b3.toNat - 0x80)
          if 0x10000 ≤ n ∧ n.isValidChar then (utf8Dec r).map (Char.ofNat n :: ·) else none
        else none
      | _ => none
    else none

/-- `char::encode_utf16`; units as `Nat` (/repo/src/ast/literal/string.rs:120,135). -/
def utf16Enc (c : Char) : List Nat :=
  let n := c.toNat
  if n < 0x10000 then [n] else [0xD800 + (n - 0x10000) / 1024, 0xDC00 + (n - 0x10000) % 1024]

/-- `String::from_utf16`: strict decoding, unpaired surrogates are errors
(/repo/src/ast/literal/string.rs:161). -/
def utf16Dec : List Nat → Option Str
  | [] => some []
  | u :: r =>
    if 0xD800 ≤ u ∧ u < 0xDC00 then
      match r with
      | v :: r => if 0xDC00 ≤ v ∧ v < 0xE000 then
          (utf16Dec r).map (Char.ofNat (0x10000 + (u - 0xD800) * 1024 + (v - 0xDC00)) :: ·)
        else none
      | [] => none
    else if 0xDC00 ≤ u ∧ u < 0xE000 then none
    else (utf16Dec r).map (Char.ofNat u :: ·)

/-! ## Escapes (/repo/src/ast/literal.rs) -/

open Parser

/-- One digit in the given base: `map_opt(verify(anychar, is_xxx_digit), to_digit)`
(/repo/src/ast/literal.rs:154,163,183,193).  `is_xxx_digit(*c as u8)` truncates the
character, but `to_digit` then rejects every non-ASCII character. -/
def digitP (base : Nat) : Parser Char Nat := mapOpt (satisfy fun _ => true) (toDigit base)

/-- The accumulation `|acc, n| acc * base + n` (/repo/src/ast/literal.rs:156,166,186,196). -/
def foldDigits (base : Nat) (ds : List Nat) : Nat := ds.foldl (fun acc n => acc * base + n) 0

/-- /repo/src/ast/literal.rs:124-141, `simple_escape_sequence`. -/
def simpleEscape : Parser Char Char
  | 'a' :: r => some (Char.ofNat 7, r)
  | 'b' :: r => some (Char.ofNat 8, r)
  | 'e' :: r => some (Char.ofNat 0x1b, r)
  | 'f' :: r => some (Char.ofNat 0xc, r)
  | 'n' :: r => some ('\n', r)
  | 'r' :: r => some ('\r', r)
  | 't' :: r => some ('\t', r)
  | 'v' :: r => some (Char.ofNat 0xb, r)
  | '\\' :: r => some ('\\', r)
  | '\'' :: r => some ('\'', r)
  | '"' :: r => some ('"', r)
  | '?' :: r => some ('?', r)
  | _ => none

/-- /repo/src/ast/literal.rs:144-169, `numeric_escape_sequence`. -/
def numericEscape : Parser Char Nat :=
  or (map (manyMN 1 (digitP 8) 3 0) (foldDigits 8))
    (preceded (tagNoCase c!"x") (map (manyMN 2 (digitP 16) 2 0) (foldDigits 16)))

/-- /repo/src/ast/literal.rs:172-199, `universal_char`. -/
def universalChar : Parser Char Nat :=
  or (preceded (tag c!"u") (map (manyMN 4 (digitP 16) 4 0) (foldDigits 16)))
    (preceded (tag c!"U") (map (manyMN 8 (digitP 16) 8 0) (foldDigits 16)))

/-- /repo/src/ast/literal.rs:202-209, `escaped_char`. -/
def escapedChar : Parser Char Nat :=
  preceded (tag c!"\\") (or (map simpleEscape Char.toNat) (or numericEscape universalChar))

/-- /repo/src/ast/literal.rs:212-219, `unescaped_char`. -/
def unescapedChar : Parser Char Char := satisfy fun c => c != '\\' && c != '\'' && c != '\n'

/-! ## Character literals (/repo/src/ast/literal/char.rs) -/

/-- /repo/src/ast/literal/char.rs:21-26, `LitCharPrefix`. -/
inductive CharPrefix
  | utf8 | utf16 | utf32 | wide
  deriving DecidableEq, Repr

/-- /repo/src/ast/literal/char.rs:29-40, `LitCharPrefix::parse`. -/
def charPrefix : Parser Char CharPrefix :=
  or (map (tag c!"u8") fun _ => .utf8) <| or (map (tag c!"u") fun _ => .utf16) <|
  or (map (tag c!"U") fun _ => .utf32) (map (tag c!"L") fun _ => .wide)

/-- /repo/src/ast/literal/char.rs:87-96, `LitChar::with_prefix`. -/
def LitChar.withPrefix (p : Option CharPrefix) (c : Nat) : Option LitChar :=
  match p with
  | none => if c ≤ 0xff then some (.ordinary c) else none
  | some .utf8 => if c ≤ 0x7f then some (.utf8 c) else none
  | some .utf16 => if c ≤ 0xffff then some (.utf16 c) else none
  | some .utf32 => some (.utf32 c)
  | some .wide => some (.wide c)

/-- /repo/src/ast/literal/char.rs:83-85, `LitChar::parse_unprefixed`. -/
def LitChar.parseUnprefixed : Parser Char Nat :=
  delimited (tag c!"'") (or escapedChar (map unescapedChar Char.toNat)) (tag c!"'")

/-- /repo/src/ast/literal/char.rs:79-81, `LitChar::parse_str`. -/
def LitChar.parseStr : Parser Char LitChar :=
  mapOpt (seq (opt charPrefix) LitChar.parseUnprefixed) fun (p, c) => LitChar.withPrefix p c

/-! ## String literals (/repo/src/ast/literal/string.rs) -/

/-- The unescaped run `is_not("\\\"\n")` (/repo/src/ast/literal/string.rs:83,134,171). -/
def strRun : Parser Char Str := takeWhile1 fun c => c != '\\' && c != '"' && c != '\n'

/-- `char('\"')` (/repo/src/ast/literal/string.rs:72,97). -/
def dquote : Parser Char Unit := tag c!"\""

/-- The bytes contributed by an escape in an ordinary string
(/repo/src/ast/literal/string.rs:74-82). -/
def ordinaryEscape (c : Nat) : Option (List UInt8) :=
  if c < 256 then some [UInt8.ofNat c]
  else (charOfNat c).map utf8Enc

/-- /repo/src/ast/literal/string.rs:70-99, `parse_ordinary`; the accumulator is
concatenation. -/
def parseOrdinary : Parser Char (List UInt8) :=
  delimited dquote
    (map (many0 (or (mapOpt escapedChar ordinaryEscape) (map strRun utf8EncStr))) List.flatten)
    dquote

/-- /repo/src/ast/literal/string.rs:101-108, `parse_utf8`. -/
def parseUtf8 : Parser Char Str := mapOpt parseOrdinary utf8Dec

/-- /repo/src/ast/literal/string.rs:111-114, `Part` in `parse_utf16`. -/
inductive Part16
  | vec (us : List Nat)
  | str (s : Str)

/-- /repo/src/ast/literal/string.rs:117-122, `Part::into_vec`. -/
def Part16.toVec : Part16 → List Nat
  | .vec us => us
  | .str s => s.flatMap utf16Enc

/-- The fold of `parse_utf16` (/repo/src/ast/literal/string.rs:139-151). -/
def Part16.append : Part16 → Part16 → Part16
  | .str [], c => c
  | .str s, .str c => .str (s ++ c)
  | s, c => .vec (s.toVec ++ c.toVec)

/-- The units contributed by an escape in a UTF-16 string
(/repo/src/ast/literal/string.rs:130-138). -/
def utf16Escape (c : Nat) : Option Part16 :=
  if c < 65536 then some (.vec [c]) else (charOfNat c).map fun c => .vec (utf16Enc c)

/-- /repo/src/ast/literal/string.rs:156-162, conversion of the collected part. -/
def Part16.finish : Part16 → Option Str
  | .str s => some s
  | .vec us => utf16Dec us

/-- /repo/src/ast/literal/string.rs:110-164, `parse_utf16`. -/
def parseUtf16 : Parser Char Str :=
  mapOpt
    (delimited dquote
      (map (many0 (or (mapOpt escapedChar utf16Escape) (map strRun Part16.str)))
        (fun ps => ps.foldl Part16.append (.str [])))
      dquote)
    Part16.finish

/-- /repo/src/ast/literal/string.rs:167-198, `parse_utf32`. -/
def parseUtf32 : Parser Char Str :=
  delimited dquote
    (map (many0 (or (mapOpt escapedChar fun c => (charOfNat c).map ([·])) strRun)) List.flatten)
    dquote

/-- /repo/src/ast/literal/string.rs:200-202, `parse_wide`. -/
def parseWide : Parser Char (List Nat) :=
  delimited dquote
    (many0 (or escapedChar
      (map (satisfy fun c => c != '\\' && c != '"' && c != '\n') Char.toNat)))
    dquote

/-- /repo/src/ast/literal/string.rs:204-212, `LitString::parse_str`. -/
def LitString.parseStr : Parser Char LitString :=
  or (map parseOrdinary .ordinary) <|
  or (preceded (tag c!"u8") (map parseUtf8 .utf8)) <|
  or (preceded (tag c!"u") (map parseUtf16 .utf16)) <|
  or (preceded (tag c!"U") (map parseUtf32 .utf32))
    (preceded (tag c!"L") (map parseWide .wide))

/-! ## Floating-point literals (/repo/src/ast/literal/float.rs) -/

/-- nom `digit1` (/repo/src/ast/literal/float.rs:73). -/
def digit1 : Parser Char Str := takeWhile1 (isDigit 10)

/-- `recognize(pair(char('.'), digit1))` (/repo/src/ast/literal/float.rs:72). -/
def floatDecimal : Parser Char Str := map (seq (tag c!".") digit1) fun (_, d) => '.' :: d

/-- The sign in an exponent: `alt((char('+'), char('-')))` (/repo/src/ast/literal/float.rs:74). -/
def floatSign : Parser Char Char := satisfy fun c => c == '+' || c == '-'

/-- `recognize(tuple((tag_no_case("e"), opt(sign), digit1)))`
(/repo/src/ast/literal/float.rs:73); `e` is the letter as written. -/
def floatScientific : Parser Char Str :=
  map (seq (satisfy fun c => c == 'e' || c == 'E') (seq (opt floatSign) digit1))
    fun (e, s, d) => e :: s.toList ++ d

/-- The recognised number text (/repo/src/ast/literal/float.rs:77-91). -/
def floatRepr : Parser Char Str :=
  or
    (map (seq
      (or (map (seq (opt digit1) floatDecimal) fun (a, b) => a.getD [] ++ b)
        (map (seq digit1 (tag c!".")) fun (a, _) => a ++ ['.']))
      (opt floatScientific)) fun (a, b) => a ++ b.getD [])
    (map (seq digit1 floatScientific) fun (a, b) => a ++ b)

/-- /repo/src/ast/literal/float.rs:22-25, `LitFloatSuffix`. -/
inductive FloatSuffix
  | float | longDouble
  deriving DecidableEq, Repr

/-- /repo/src/ast/literal/float.rs:28-34, `LitFloatSuffix::parse`. -/
def floatSuffix : Parser Char FloatSuffix :=
  or (map (tagNoCase c!"f") fun _ => .float) (map (tagNoCase c!"l") fun _ => .longDouble)

/-- /repo/src/ast/literal/float.rs:57-99, `LitFloat::parse_str`.  `parse_to` never
fails on a recognised text (Rust's `f64::from_str` accepts all these forms), and its
result is the symbolic value of the text. -/
def LitFloat.parseStr : Parser Char LitFloat :=
  map (seq floatRepr (opt floatSuffix)) fun (t, s) =>
    match s with
    | some .float => .float (.parse t)
    | some .longDouble => .longDouble (.parse t)
    | none => .double (.parse t)

/-! ## Integer literals (/repo/src/ast/literal/int.rs) -/

/-- `i128::MAX` (/repo/src/ast/literal/int.rs:77-81). -/
def i128Max : Nat := 2 ^ 127 - 1

/-- /repo/src/ast/literal/int.rs:71-86, `parse_i128`: `checked_mul` then `checked_add`.
The accumulated value is never negative, so only the upper bound matters; `none` is
overflow.  The Rust `to_digit(base).unwrap()` cannot panic since callers pass digits
of that base; a non-digit is reported as `none` here. -/
def parseI128Go (base : Nat) : Str → Nat → Option Nat
  | [], v => some v
  | c :: cs, v => match toDigit base c with
    | none => none
    | some d =>
      if v * base ≤ i128Max then
        if v * base + d ≤ i128Max then parseI128Go base cs (v * base + d) else none
      else none

/-- /repo/src/ast/literal/int.rs:71-86, `parse_i128`. -/
def parseI128 (base : Nat) (s : Str) : Option Nat := parseI128Go base s 0

/-- The digit alternatives (/repo/src/ast/literal/int.rs:120-125). -/
def intDigits : Parser Char Nat :=
  or (mapOpt (preceded (tagNoCase c!"0x") (takeWhile1 (isDigit 16))) (parseI128 16)) <|
  or (mapOpt (preceded (tagNoCase c!"0b") (takeWhile1 fun c => c == '0' || c == '1')) (parseI128 2)) <|
  or (mapOpt (preceded (tag c!"0") (takeWhile1 (isDigit 8))) (parseI128 8))
    (mapOpt (takeWhile1 (isDigit 10)) (parseI128 10))

/-- /repo/src/ast/literal/int.rs:34-38, `LitIntSizeSuffix`. -/
inductive IntSizeSuffix
  | longLong | long | sizeT
  deriving DecidableEq, Repr

/-- /repo/src/ast/literal/int.rs:41-51, `LitIntSizeSuffix::parse`. -/
def intSizeSuffix : Parser Char IntSizeSuffix :=
  or (map (or (tag c!"ll") (tag c!"LL")) fun _ => .longLong) <|
  or (map (tagNoCase c!"l") fun _ => .long) (map (tagNoCase c!"z") fun _ => .sizeT)

/-- /repo/src/ast/literal/int.rs:24-30, `LitIntUnsignedSuffix::parse`. -/
def intUnsignedSuffix : Parser Char Unit := tagNoCase c!"u"

/-- /repo/src/ast/literal/int.rs:88-106, `parse_suffix`: (is unsigned, size). -/
def intSuffix : Parser Char (Bool × Option IntSizeSuffix) :=
  allConsuming <|
    or (map (seq intUnsignedSuffix (opt intSizeSuffix)) fun (_, s) => (true, s)) <|
    or (map (seq intSizeSuffix (opt intUnsignedSuffix)) fun (s, u) => (u.isSome, some s))
      (map eof fun _ => (false, none))

/-- /repo/src/ast/literal/int.rs:129-138, the suffix table. -/
def intSuffixType : Bool × Option IntSizeSuffix → Option BuiltInType
  | (false, none) => none
  | (true, none) => some .uInt
  | (true, some .long) => some .uLong
  | (false, some .long) => some .long
  | (true, some .longLong) => some .uLongLong
  | (false, some .longLong) => some .longLong
  | (true, some .sizeT) => some .sizeT
  | (false, some .sizeT) => some .sSizeT

/-- /repo/src/ast/literal/int.rs:108-142, `LitInt::parse_str`. -/
def LitInt.parseStr : Parser Char LitInt :=
  map (seq intDigits intSuffix) fun (v, s) => ⟨BitVec.ofNat 128 v, intSuffixType s⟩

/-! ## Literals (/repo/src/ast/literal.rs) -/

/-- /repo/src/ast/literal.rs:61-68, `Lit::parse_str`. -/
def Lit.parseStr : Parser Char Lit :=
  or (map LitChar.parseStr .char) <| or (map LitString.parseStr .string) <|
  or (map LitFloat.parseStr .float) (map LitInt.parseStr .int)

/-- /repo/src/ast/literal.rs:114-121, `Lit::try_from(&str)`. -/
def Lit.tryFrom (s : Str) : Option Lit := (allConsuming Lit.parseStr s).map (·.1)

end CMacro
