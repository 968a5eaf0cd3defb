import Verif.Proofs.Lit

/-!
# Properties C29, C30, C31, C51, C52, C53: string and character literals

A token is a prefix (possibly empty), a quote, a text in the grammar `Spec.StrText` /
`Spec.ChrText`, and a quote.
-/

namespace CMacro
open Spec (Elem StrText ChrText Escape Digits Digit positional TwoHex AnyEsc BadName Prefix)

/-- A string token. -/
def Spec.strToken (p : Prefix) (s : Str) : Str := p.text ++ '"' :: s ++ ['"']

/-- A character token. -/
def Spec.chrToken (p : Prefix) (s : Str) : Str := p.text ++ '\'' :: s ++ ['\'']

open Spec (strToken chrToken)

/-! ## C29 -/

/-- **C29**: an ordinary string literal is read as the bytes it denotes: characters written as
themselves in UTF-8, simple, octal and two-digit hexadecimal escapes as one byte each, universal
character names outside U+0080–U+00FF in UTF-8. -/
theorem C29_bytes (s : Str) (es : List Elem) (h : StrText TwoHex s es)
    (hcode : ∀ n, .code n ∈ es → n < 256)
    (hucn : ∀ c : Char, .ucn c ∈ es → c.toNat < 0x80 ∨ 0x100 ≤ c.toNat) :
    Lit.tryFrom (strToken .none s) = some (.string (.ordinary (es.flatMap Elem.bytes))) := by
  refine lit_string ?_ ?_
  · simp only [strToken, List.append_assoc, List.cons_append]
    exact litChar_dquote .none _
  · simp only [strToken, List.append_assoc, List.cons_append]
    rw [litString_eq .none]
    refine Parser.map_some (parseOrdinary_text h ?_ [])
    intro e he
    cases e with
    | raw c => trivial
    | code n => exact hcode n he
    | ucn c => exact hucn c he

/-- A byte as a three-digit octal escape. -/
def Spec.octalByte (b : UInt8) : Str :=
  ['\\', Char.ofNat (48 + b.toNat / 64), Char.ofNat (48 + b.toNat / 8 % 8),
    Char.ofNat (48 + b.toNat % 8)]

theorem digit_ofNat {b d : Nat} (hb : d < b) (hd : d < 10) : Digit b d (Char.ofNat (48 + d)) := by
  refine ⟨hb, .inl ⟨hd, ?_⟩⟩
  have : (48 + d).isValidChar := .inl (by omega)
  simp [Char.ofNat, this, Char.toNat, Char.ofNatAux]
  omega

theorem octal_text (bs : List UInt8) :
    StrText TwoHex (bs.flatMap Spec.octalByte) (bs.map fun b => .code b.toNat) := by
  induction bs with
  | nil => exact .nil
  | cons b bs ih =>
    rw [List.flatMap_cons, List.map_cons]
    have hb : b.toNat < 256 := b.toNat_lt
    have hd : Digits 8 [b.toNat / 64, b.toNat / 8 % 8, b.toNat % 8]
        [Char.ofNat (48 + b.toNat / 64), Char.ofNat (48 + b.toNat / 8 % 8),
          Char.ofNat (48 + b.toNat % 8)] :=
      .cons (digit_ofNat (by omega) (by omega)) <| .cons (digit_ofNat (by omega) (by omega)) <|
        .cons (digit_ofNat (by omega) (by omega)) .nil
    have hv : positional 8 [b.toNat / 64, b.toNat / 8 % 8, b.toNat % 8] = b.toNat := by
      simp [positional]; omega
    have he : Escape (Spec.octalByte b) (.code b.toNat) (bs.flatMap Spec.octalByte) := by
      have := Escape.octal (rest := bs.flatMap Spec.octalByte) hd (by simp) (by simp)
        (.inl (by simp))
      rw [hv] at this
      exact this
    refine .esc he ?_ ih
    intro t ht
    simp only [Spec.octalByte, List.cons.injEq, true_and] at ht
    exfalso
    have h1 := congrArg Char.toNat ht.1
    have : (48 + b.toNat / 64).isValidChar := .inl (by omega)
    simp [Char.ofNat, this, Char.toNat, Char.ofNatAux] at h1
    omega

/-- **C29**: every byte string, written with three-digit octal escapes, is read back. -/
theorem C29_octal_round_trip (bs : List UInt8) :
    Lit.tryFrom (strToken .none (bs.flatMap Spec.octalByte)) =
      some (.string (.ordinary bs)) := by
  rw [C29_bytes _ _ (octal_text bs)]
  · have : (bs.map fun b => Elem.code b.toNat).flatMap Elem.bytes = bs := by
      induction bs with
      | nil => rfl
      | cons b bs ih => rw [List.map_cons, List.flatMap_cons, ih]; simp [Elem.bytes]
    rw [this]
  · intro n hn
    simp only [List.mem_map, Elem.code.injEq] at hn
    obtain ⟨b, -, rfl⟩ := hn
    exact b.toNat_lt
  · intro c hc
    simp at hc

example : Lit.tryFrom c!"\"\\377\\000a\"" = some (.string (.ordinary [255, 0, 97])) := by
  have h1 : Escape c!"\\377" (.code 255) c!"\\000a" :=
    Escape.octal (ds := [3, 7, 7]) (s := c!"377")
      (.cons ⟨by decide, .inl (by decide)⟩ <| .cons ⟨by decide, .inl (by decide)⟩ <|
        .cons ⟨by decide, .inl (by decide)⟩ .nil) (by decide) (by decide) (.inl (by decide))
  have h2 : Escape c!"\\000" (.code 0) c!"a" :=
    Escape.octal (ds := [0, 0, 0]) (s := c!"000")
      (.cons ⟨by decide, .inl (by decide)⟩ <| .cons ⟨by decide, .inl (by decide)⟩ <|
        .cons ⟨by decide, .inl (by decide)⟩ .nil) (by decide) (by decide) (.inl (by decide))
  have := C29_bytes c!"\\377\\000a" _
    (.esc h1 (by intro t h; simp at h) (.esc h2 (by intro t h; simp at h)
      (.raw (by decide) (by decide) (by decide) .nil)))
    (by intro n hn; simp at hn; omega) (by intro c hc; simp at hc)
  exact this
example : Lit.tryFrom (strToken .none ([0, 200, 34].flatMap Spec.octalByte)) =
    some (.string (.ordinary [0, 200, 34])) := C29_octal_round_trip _

/-! ## C52 -/

/-- **C52**, the full statement: the same with hexadecimal escapes of any length. -/
def C52_statement : Prop :=
  ∀ (s : Str) (es : List Elem), StrText AnyEsc s es → (∀ n, .code n ∈ es → n < 256) →
    (∀ c : Char, .ucn c ∉ es) →
    Lit.tryFrom (strToken .none s) = some (.string (.ordinary (es.flatMap Elem.bytes)))

/-- **C52** is false of the code: `"\x1"` is not accepted. -/
theorem C52_false : ¬ C52_statement := by
  intro h
  have he : Escape c!"\\x1" (.code 1) [] :=
    Escape.hex (ds := [1]) (s := c!"1") (.cons ⟨by decide, .inl (by decide)⟩ .nil) (by decide)
      (by intro c r d h; simp at h)
  have := h c!"\\x1" [.code 1] (.esc (s := []) he trivial .nil) (by simp) (by simp)
  rw [show Lit.tryFrom (strToken .none c!"\\x1") = none from by decide +kernel] at this
  simp at this

/-- **C52**, what holds: escapes with exactly two hexadecimal digits. -/
theorem C52_two_digit_hex_partial (s : Str) (es : List Elem) (h : StrText TwoHex s es)
    (hcode : ∀ n, .code n ∈ es → n < 256) (hucn : ∀ c : Char, .ucn c ∉ es) :
    Lit.tryFrom (strToken .none s) = some (.string (.ordinary (es.flatMap Elem.bytes))) :=
  C29_bytes s es h hcode (fun c hc => absurd hc (hucn c))

theorem escape_x41 : Escape c!"\\x41" (.code 0x41) [] :=
  Escape.hex (ds := [4, 1]) (s := c!"41") (.cons ⟨by decide, .inl (by decide)⟩ <|
    .cons ⟨by decide, .inl (by decide)⟩ .nil) (by decide) (by intro c r d h; simp at h)

example : Lit.tryFrom c!"\"\\x41\"" = some (.string (.ordinary [0x41])) :=
  C52_two_digit_hex_partial c!"\\x41" [.code 0x41]
    (.esc (s := []) escape_x41 (by intro t h; simp at h; rw [← h]; rfl) .nil) (by simp) (by simp)

/-! ## C30 -/

/-- **C30**, the full statement: in ordinary and `u8` literals characters and universal
character names are encoded in UTF-8. -/
def C30_statement : Prop :=
  ∀ (s : Str) (es : List Elem), StrText AnyEsc s es → (∀ n, .code n ∉ es) →
    Lit.tryFrom (strToken .none s) = some (.string (.ordinary (es.flatMap Elem.bytes))) ∧
    Lit.tryFrom (strToken .u8 s) = some (.string (.utf8 (es.map Elem.chr)))

theorem digits_00e9 : Digits 16 [0, 0, 14, 9] c!"00e9" :=
  .cons ⟨by decide, .inl (by decide)⟩ <| .cons ⟨by decide, .inl (by decide)⟩ <|
    .cons ⟨by decide, .inr (by decide)⟩ <| .cons ⟨by decide, .inl (by decide)⟩ .nil

theorem escape_00e9 (rest : Str) : Escape c!"\\u00e9" (.ucn 'é') rest :=
  Escape.ucn4 (c := 'é') digits_00e9 rfl (by decide)

/-- **C30** is false of the code: `"\u00e9"` becomes the single byte 0xE9. -/
theorem C30_false : ¬ C30_statement := by
  intro h
  have := (h c!"\\u00e9" [.ucn 'é'] (.esc (s := []) (escape_00e9 []) trivial .nil) (by simp)).1
  rw [show Lit.tryFrom (strToken .none c!"\\u00e9") = some (.string (.ordinary [0xe9]))
    from by decide +kernel] at this
  exact absurd this (by decide +kernel)

/-- **C30**: the second half fails too, `u8"\u00e9"` is rejected altogether. -/
theorem C30_u8_false : Lit.tryFrom c!"u8\"\\u00e9\"" = none := by decide +kernel

theorem twoHex_of_noCode {s : Str} {es : List Elem} (h : StrText AnyEsc s es)
    (hc : ∀ n, .code n ∉ es) : StrText TwoHex s es := by
  induction h with
  | nil => exact .nil
  | raw h1 h2 h3 _ ih =>
    exact .raw h1 h2 h3 (ih (fun n hn => hc n (List.mem_cons_of_mem _ hn)))
  | esc he _ _ ih =>
    refine .esc he ?_ (ih (fun n hn => hc n (List.mem_cons_of_mem _ hn)))
    intro t ht
    cases he with
    | simple _ => exact absurd List.mem_cons_self (hc _)
    | octal _ _ _ _ => exact absurd List.mem_cons_self (hc _)
    | hex _ _ _ => exact absurd List.mem_cons_self (hc _)
    | ucn4 _ _ _ => simp at ht
    | ucn8 _ _ _ => simp at ht

/-- A `u8` literal with characters only. -/
theorem utf8_token (s : Str) (es : List Elem) (h : StrText TwoHex s es)
    (hch : ∀ e ∈ es, e.IsChar)
    (hucn : ∀ c : Char, .ucn c ∈ es → c.toNat < 0x80 ∨ 0x100 ≤ c.toNat) :
    Lit.tryFrom (strToken .u8 s) = some (.string (.utf8 (es.map Elem.chr))) := by
  refine lit_string ?_ ?_
  · simp only [strToken, List.append_assoc, List.cons_append]
    exact litChar_dquote .u8 _
  · simp only [strToken, List.append_assoc, List.cons_append]
    rw [litString_eq .u8]
    refine Parser.map_some (parseUtf8_text h ?_ hch [])
    intro e he
    have hce := hch e he
    cases e with
    | raw c => trivial
    | code n => simp only [Elem.IsChar] at hce; show n < 256; omega
    | ucn c => exact hucn c he

/-- **C30**, what holds: outside U+0080–U+00FF. -/
theorem C30_utf8_partial (s : Str) (es : List Elem) (h : StrText AnyEsc s es)
    (hc : ∀ n, .code n ∉ es)
    (hucn : ∀ c : Char, .ucn c ∈ es → c.toNat < 0x80 ∨ 0x100 ≤ c.toNat) :
    Lit.tryFrom (strToken .none s) = some (.string (.ordinary (es.flatMap Elem.bytes))) ∧
    Lit.tryFrom (strToken .u8 s) = some (.string (.utf8 (es.map Elem.chr))) := by
  have h2 := twoHex_of_noCode h hc
  refine ⟨C29_bytes s es h2 (fun n hn => absurd hn (hc n)) hucn, utf8_token s es h2 ?_ hucn⟩
  intro e he
  cases e with
  | raw c => trivial
  | code n => exact absurd he (hc n)
  | ucn c => trivial

theorem escape_20ac (rest : Str) : Escape c!"\\u20ac" (.ucn '€') rest :=
  Escape.ucn4 (c := '€') (ds := [2, 0, 10, 12])
    (.cons ⟨by decide, .inl (by decide)⟩ <| .cons ⟨by decide, .inl (by decide)⟩ <|
      .cons ⟨by decide, .inr (by decide)⟩ <| .cons ⟨by decide, .inr (by decide)⟩ .nil) rfl (by decide)

example : Lit.tryFrom c!"\"\\u20ac\"" = some (.string (.ordinary [0xe2, 0x82, 0xac])) ∧
    Lit.tryFrom c!"u8\"\\u20ac\"" = some (.string (.utf8 ['€'])) :=
  C30_utf8_partial c!"\\u20ac" [.ucn '€'] (.esc (s := []) (escape_20ac []) trivial .nil) (by simp)
    (by intro c hc; simp at hc; subst hc; decide)

/-! ## C51 -/

/-- **C51**: `u` and `U` string literals are read as the characters they denote. -/
theorem C51_unicode_strings (s : Str) (es : List Elem) (h : StrText TwoHex s es)
    (hcode : ∀ n, .code n ∈ es → ∃ c : Char, c.toNat = n) :
    Lit.tryFrom (strToken .u s) = some (.string (.utf16 (es.map Elem.chr))) ∧
    Lit.tryFrom (strToken .U s) = some (.string (.utf32 (es.map Elem.chr))) := by
  have hok : ∀ e ∈ es, ChrOk e := by
    intro e he
    cases e with
    | raw c => trivial
    | code n =>
      obtain ⟨c, rfl⟩ := hcode n he
      exact c.valid
    | ucn c => trivial
  constructor
  · refine lit_string ?_ ?_
    · simp only [strToken, List.append_assoc, List.cons_append]
      exact litChar_dquote .u _
    · simp only [strToken, List.append_assoc, List.cons_append]
      rw [litString_eq .u]
      exact Parser.map_some (parseUtf16_text h hok [])
  · refine lit_string ?_ ?_
    · simp only [strToken, List.append_assoc, List.cons_append]
      exact litChar_dquote .U _
    · simp only [strToken, List.append_assoc, List.cons_append]
      rw [litString_eq .U]
      exact Parser.map_some (parseUtf32_text h hok [])

/-- **C51**: a wide string literal is read as the code points and codes it denotes. -/
theorem C51_wide_strings (s : Str) (es : List Elem) (h : StrText TwoHex s es) :
    Lit.tryFrom (strToken .L s) = some (.string (.wide (es.map Elem.num))) := by
  refine lit_string ?_ ?_
  · simp only [strToken, List.append_assoc, List.cons_append]
    exact litChar_dquote .L _
  · simp only [strToken, List.append_assoc, List.cons_append]
    rw [litString_eq .L]
    exact Parser.map_some (parseWide_text h [])

theorem text_smile : StrText TwoHex c!"a\\u00e9\\n" [.raw 'a', .ucn 'é', .code 10] :=
  .raw (by decide) (by decide) (by decide) <|
    .esc (escape_00e9 _) (by intro t h; simp at h) <|
    .esc (s := []) (.simple (k := 'n') (n := 10) (by decide)) (by intro t h; simp at h) .nil

example : Lit.tryFrom c!"u\"a\\u00e9\\n\"" = some (.string (.utf16 ['a', 'é', '\n'])) :=
  (C51_unicode_strings _ _ text_smile (by
    intro n hn; simp at hn; subst hn; exact ⟨'\n', rfl⟩)).1
example : Lit.tryFrom c!"L\"a\\u00e9\\n\"" = some (.string (.wide [97, 0xe9, 10])) :=
  C51_wide_strings _ _ text_smile

/-! ## C31 -/

/-- The largest value of a character literal with the prefix. -/
def Spec.Prefix.max : Prefix → Nat
  | .none => 0xff | .u8 => 0x7f | .u => 0xffff | .U => 0xffffffff | .L => 0xffffffff

/-- The literal with the prefix and value. -/
def Spec.Prefix.lit : Prefix → Nat → LitChar
  | .none => .ordinary | .u8 => .utf8 | .u => .utf16 | .U => .utf32 | .L => .wide

theorem chr_lt {t : Str} {e : Elem} (h : ChrText t e) (hx : TwoHex t) : e.num < 2 ^ 32 :=
  parseUnprefixed_lt (parseUnprefixed_text h hx [])

/-- **C31**: a character literal is accepted exactly when its value fits the prefix, and then
has that value and kind. -/
theorem C31_exact (p : Prefix) (t : Str) (e : Elem) (h : ChrText t e) (hx : TwoHex t) :
    Lit.tryFrom (chrToken p t) =
      if e.num ≤ p.max then some (.char (p.lit e.num)) else none := by
  have h1 := litChar_text p h hx
  have hlt := chr_lt h hx
  have hw : LitChar.withPrefix p.parsed e.num =
      if e.num ≤ p.max then some (p.lit e.num) else none := by
    cases p <;> simp only [LitChar.withPrefix, Prefix.parsed, Prefix.max, Prefix.lit]
    all_goals try rfl
    all_goals exact (if_pos (show e.num ≤ 0xffffffff by omega)).symm
  rw [hw] at h1
  split
  · rename_i hle
    rw [if_pos hle] at h1
    exact lit_char h1
  · rename_i hle
    rw [if_neg hle] at h1
    have hs : LitString.parseStr (chrToken p t) = none := by
      simp only [chrToken, List.append_assoc, List.cons_append]
      exact litString_squote p _
    obtain ⟨c, r, hcr, hn⟩ := prefix_cons p '\'' (by unfold NoNum; decide) (t ++ ['\''])
    have hcr : chrToken p t = c :: r := by
      simp only [chrToken, List.append_assoc, List.cons_append]; exact hcr
    rw [show p.text ++ '\'' :: t ++ ['\''] = chrToken p t from rfl, hcr] at h1
    rw [hcr] at hs ⊢
    exact lit_none hn h1 hs

/-- **C31**: every accepted character literal, however written, fits its kind. -/
theorem C31_range (s : Str) (p : Prefix) (n : Nat) (h : Lit.tryFrom s = some (.char (p.lit n))) :
    n ≤ p.max := by
  unfold Lit.tryFrom at h
  cases ha : Parser.allConsuming Lit.parseStr s with
  | none => rw [ha] at h; simp at h
  | some x =>
    obtain ⟨l, r⟩ := x
    rw [ha] at h
    simp only [Option.map_some, Option.some.injEq] at h
    subst h
    obtain ⟨hp, -⟩ := Parser.allConsuming_inv ha
    rcases Parser.or_inv hp with h | ⟨-, h⟩
    · replace h := Parser.map_inv h
      obtain ⟨c, h, hc⟩ := h
      simp only [Lit.char.injEq] at hc
      subst hc
      unfold LitChar.parseStr Parser.mapOpt at h
      split at h
      · rename_i y r' hy
        obtain ⟨pre, v⟩ := y
        split at h
        · rename_i c' hw
          simp only [Option.some.injEq, Prod.mk.injEq] at h
          obtain ⟨rfl, -⟩ := h
          obtain ⟨r'', -, hv⟩ := Parser.seq_inv hy
          have hlt := parseUnprefixed_lt hv
          simp only at hw hlt
          cases pre with
          | none =>
            simp only [LitChar.withPrefix] at hw
            split at hw
            · cases p <;> simp [Prefix.lit] at hw
              subst hw; simpa [Prefix.max] using ‹v ≤ 255›
            · simp at hw
          | some k =>
            cases k with
            | utf8 =>
              simp only [LitChar.withPrefix] at hw
              split at hw
              · cases p <;> simp [Prefix.lit] at hw
                subst hw; simpa [Prefix.max] using ‹v ≤ 127›
              · simp at hw
            | utf16 =>
              simp only [LitChar.withPrefix] at hw
              split at hw
              · cases p <;> simp [Prefix.lit] at hw
                subst hw; simpa [Prefix.max] using ‹v ≤ 65535›
              · simp at hw
            | utf32 =>
              simp only [LitChar.withPrefix] at hw
              cases p <;> simp [Prefix.lit] at hw
              subst hw; simp only [Prefix.max]; omega
            | wide =>
              simp only [LitChar.withPrefix] at hw
              cases p <;> simp [Prefix.lit] at hw
              subst hw; simp only [Prefix.max]; omega
        · simp at h
      · simp at h
    · rcases Parser.or_inv h with h | ⟨-, h⟩
      · replace h := Parser.map_inv h; obtain ⟨c, -, hc⟩ := h; simp at hc
      · rcases Parser.or_inv h with h | ⟨-, h⟩
        · replace h := Parser.map_inv h; obtain ⟨c, -, hc⟩ := h; simp at hc
        · replace h := Parser.map_inv h; obtain ⟨c, -, hc⟩ := h; simp at hc

example : Lit.tryFrom c!"u8'\\u00e9'" = none :=
  C31_exact .u8 c!"\\u00e9" (.ucn 'é') (.esc (escape_00e9 [])) (by intro t h; simp at h)
example : Lit.tryFrom c!"u'\\u00e9'" = some (.char (.utf16 0xe9)) :=
  C31_exact .u c!"\\u00e9" (.ucn 'é') (.esc (escape_00e9 [])) (by intro t h; simp at h)
example : Lit.tryFrom c!"'a'" = some (.char (.ordinary 97)) :=
  C31_exact .none c!"a" (.raw 'a') (.raw (by decide) (by decide) (by decide))
    (by intro t h; simp at h)
example : (0xe9 : Nat) ≤ 0xffff :=
  C31_range c!"u'\\u00e9'" .u 0xe9 (by decide +kernel)

/-! ## C53 -/

/-- **C53**, the full statement: a literal that contains a universal character name that names
no character is rejected. -/
def C53_statement : Prop :=
  ∀ (p : Prefix) (s t r : Str) (es : List Elem), BadName t → StrText TwoHex s es →
    Lit.tryFrom (strToken p (s ++ t ++ r)) = none ∧ Lit.tryFrom (chrToken p t) = none

theorem badName_max : BadName c!"\\UFFFFFFFF" :=
  .ucn8 (ds := List.replicate 8 15) (s := c!"FFFFFFFF") (by
    repeat first | exact .nil | refine .cons ⟨by decide, .inr (by decide)⟩ ?_) rfl (by
    intro c h
    have := char_lt c
    have : positional 16 (List.replicate 8 15) = 0xffffffff := by decide
    omega)

/-- **C53** is false of the code: `U'\UFFFFFFFF'` is accepted. -/
theorem C53_false : ¬ C53_statement := by
  intro h
  have := (h .U [] c!"\\UFFFFFFFF" [] [] badName_max .nil).2
  rw [show Lit.tryFrom (chrToken .U c!"\\UFFFFFFFF") = some (.char (.utf32 0xffffffff))
    from by decide +kernel] at this
  simp at this

/-- **C53**, what holds: ordinary, `u8` and `U` strings reject it (after any text read
correctly). Missing: `u` and `L` strings, and character literals. -/
theorem C53_bad_names_partial (s t r : Str) (es : List Elem) (ht : BadName t)
    (h : StrText TwoHex s es) (hcode : ∀ n, .code n ∈ es → n < 256) :
    Lit.tryFrom (strToken .none (s ++ t ++ r)) = none ∧
    Lit.tryFrom (strToken .u8 (s ++ t ++ r)) = none ∧
    Lit.tryFrom (strToken .U (s ++ t ++ r)) = none := by
  have hok : ∀ e ∈ es, ChrOk e := by
    intro e he
    cases e with
    | raw c => trivial
    | code n => exact .inl (by have := hcode n he; omega)
    | ucn c => trivial
  have h1 := parseOrdinary_bad h hcode ht (r ++ ['"'])
  have h2 := parseUtf32_bad h hok ht (r ++ ['"'])
  have key : ∀ p : Prefix, LitString.parseStr (p.text ++ '"' :: (s ++ (t ++ (r ++ ['"'])))) = none →
      Lit.tryFrom (strToken p (s ++ t ++ r)) = none := by
    intro p hp
    have hc := litChar_dquote p (s ++ (t ++ (r ++ ['"'])))
    obtain ⟨c, x, hcr, hn⟩ := prefix_cons p '"' (by unfold NoNum; decide) (s ++ (t ++ (r ++ ['"'])))
    have : strToken p (s ++ t ++ r) = p.text ++ '"' :: (s ++ (t ++ (r ++ ['"']))) := by
      simp [strToken]
    rw [this]
    rw [hcr] at hp hc ⊢
    exact lit_none hn hc hp
  refine ⟨key .none ?_, key .u8 ?_, key .U ?_⟩
  · rw [litString_eq .none]; exact Parser.map_none h1
  · rw [litString_eq .u8]; exact Parser.map_none (Parser.mapOpt_none' h1)
  · rw [litString_eq .U]; exact Parser.map_none h2

example : Lit.tryFrom c!"u8\"a\\UFFFFFFFF\"" = none :=
  (C53_bad_names_partial c!"a" c!"\\UFFFFFFFF" [] [.raw 'a'] badName_max
    (.raw (by decide) (by decide) (by decide) .nil) (by simp)).2.1

end CMacro
