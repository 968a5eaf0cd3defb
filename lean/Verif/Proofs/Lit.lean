import Verif.Proofs.Text

/-! # String and character tokens -/

namespace CMacro
open Parser Spec

/-- Not the start of a number. -/
def NoNum (c : Char) : Prop := isDigit 10 c = false ∧ c ≠ '.'

theorem litFloat_none {c : Char} (h : NoNum c) (r : Str) : LitFloat.parseStr (c :: r) = none := by
  have h1 : digit1 (c :: r) = none := takeWhile1_stop (by
    intro c' r' hc
    simp only [List.cons.injEq] at hc
    rw [← hc.1, h.1])
  have h2 : floatDecimal (c :: r) = none := map_none (seq_none (by simp [tag, Ne.symm h.2]))
  refine map_none (seq_none ?_)
  rw [floatRepr, or_right (map_none (seq_none ?_))]
  · exact map_none (seq_none h1)
  · rw [or_right (map_none (seq_none' (a := none) (r := c :: r) (by simp [opt, h1]) h2))]
    exact map_none (seq_none h1)

theorem noNum_zero {c : Char} (h : NoNum c) : c ≠ '0' := by
  rintro rfl
  exact absurd h.1 (by decide)

theorem litInt_none {c : Char} (h : NoNum c) (r : Str) : LitInt.parseStr (c :: r) = none := by
  have h1 : takeWhile1 (isDigit 10) (c :: r) = none := takeWhile1_stop (by
    intro c' r' hc
    simp only [List.cons.injEq] at hc
    rw [← hc.1, h.1])
  refine map_none (seq_none ?_)
  rw [intDigits, or_right (mapOpt_none' (preceded_none (tagNoCase_zero (noNum_zero h)))),
    or_right (mapOpt_none' (preceded_none (tagNoCase_zero (noNum_zero h)))),
    or_right (mapOpt_none' (preceded_none (by simp [tag, Ne.symm (noNum_zero h)])))]
  exact mapOpt_none' h1

theorem lit_none {c : Char} {r : Str} (h : NoNum c) (hc : LitChar.parseStr (c :: r) = none)
    (hs : LitString.parseStr (c :: r) = none) : Lit.tryFrom (c :: r) = none := by
  unfold Lit.tryFrom allConsuming
  rw [Lit.parseStr, or_right (map_none hc), or_right (map_none hs),
    or_right (map_none (litFloat_none h r)), map_none (litInt_none h r)]
  rfl

theorem lit_string {i : Str} {x : LitString} (hc : LitChar.parseStr i = none)
    (hs : LitString.parseStr i = some (x, [])) : Lit.tryFrom i = some (.string x) := by
  unfold Lit.tryFrom allConsuming
  rw [Lit.parseStr, or_right (map_none hc), or_left (map_some hs)]
  rfl

theorem lit_char {i : Str} {x : LitChar} (hc : LitChar.parseStr i = some (x, [])) :
    Lit.tryFrom i = some (.char x) := by
  unfold Lit.tryFrom allConsuming
  rw [Lit.parseStr, or_left (map_some hc)]
  rfl

/-- The encoding prefixes. -/
inductive Spec.Prefix
  | none | u8 | u | U | L
  deriving DecidableEq

/-- Their spelling. -/
def Spec.Prefix.text : Prefix → Str
  | .none => [] | .u8 => c!"u8" | .u => c!"u" | .U => c!"U" | .L => c!"L"

/-- A quoted string is no character literal. -/
theorem litChar_dquote (p : Prefix) (r : Str) : LitChar.parseStr (p.text ++ '"' :: r) = none := by
  cases p <;>
  simp [Prefix.text, LitChar.parseStr, mapOpt, seq, opt, charPrefix, Parser.or, Parser.map, tag,
    LitChar.parseUnprefixed, delimited, terminated, preceded]

theorem litString_eq (p : Prefix) (r : Str) : LitString.parseStr (p.text ++ '"' :: r) =
    match p with
    | .none => map parseOrdinary .ordinary ('"' :: r)
    | .u8 => map parseUtf8 .utf8 ('"' :: r)
    | .u => map parseUtf16 .utf16 ('"' :: r)
    | .U => map parseUtf32 .utf32 ('"' :: r)
    | .L => map parseWide .wide ('"' :: r) := by
  have hq : ∀ c r, c ≠ '"' → parseOrdinary (c :: r) = none := by
    intro c r hc
    simp [parseOrdinary, delimited, terminated, preceded, Parser.map, seq, dquote, tag, Ne.symm hc]
  cases p with
  | none =>
    simp only [Prefix.text, List.nil_append, LitString.parseStr]
    cases h : map parseOrdinary LitString.ordinary ('"' :: r) with
    | some x => exact or_left h
    | none =>
      rw [or_right h]
      simp [Parser.or, preceded, Parser.map, seq, tag]
  | u8 =>
    simp only [Prefix.text, List.cons_append, List.nil_append, LitString.parseStr]
    rw [or_right (map_none (hq _ _ (by decide)))]
    cases h : map parseUtf8 LitString.utf8 ('"' :: r) with
    | some x => exact or_left (preceded_some (a := ()) (r := '"' :: r) (by simp [tag]) h)
    | none =>
      rw [or_right (preceded_none' (a := ()) (r := '"' :: r) (by simp [tag]) h)]
      have : parseUtf16 ('8' :: '"' :: r) = none := by
        simp [parseUtf16, mapOpt, delimited, terminated, preceded, Parser.map, seq, dquote, tag]
      rw [or_right (preceded_none' (a := ()) (r := '8' :: '"' :: r) (by simp [tag]) (map_none this))]
      simp [Parser.or, preceded, Parser.map, seq, tag]
  | u =>
    simp only [Prefix.text, List.cons_append, List.nil_append, LitString.parseStr]
    rw [or_right (map_none (hq _ _ (by decide))), or_right (preceded_none (by simp [tag]))]
    cases h : map parseUtf16 LitString.utf16 ('"' :: r) with
    | some x => exact or_left (preceded_some (a := ()) (r := '"' :: r) (by simp [tag]) h)
    | none =>
      rw [or_right (preceded_none' (a := ()) (r := '"' :: r) (by simp [tag]) h)]
      simp [Parser.or, preceded, Parser.map, seq, tag]
  | U =>
    simp only [Prefix.text, List.cons_append, List.nil_append, LitString.parseStr]
    rw [or_right (map_none (hq _ _ (by decide))), or_right (preceded_none (by simp [tag])),
      or_right (preceded_none (by simp [tag]))]
    cases h : map parseUtf32 LitString.utf32 ('"' :: r) with
    | some x => exact or_left (preceded_some (a := ()) (r := '"' :: r) (by simp [tag]) h)
    | none =>
      rw [or_right (preceded_none' (a := ()) (r := '"' :: r) (by simp [tag]) h)]
      simp [preceded, Parser.map, seq, tag]
  | L =>
    simp only [Prefix.text, List.cons_append, List.nil_append, LitString.parseStr]
    rw [or_right (map_none (hq _ _ (by decide))), or_right (preceded_none (by simp [tag])),
      or_right (preceded_none (by simp [tag])), or_right (preceded_none (by simp [tag]))]
    cases h : map parseWide LitString.wide ('"' :: r) with
    | some x => exact preceded_some (a := ()) (r := '"' :: r) (by simp [tag]) h
    | none => exact preceded_none' (a := ()) (r := '"' :: r) (by simp [tag]) h

theorem prefix_cons (p : Prefix) (q : Char) (hq : NoNum q) (r : Str) :
    ∃ c r', p.text ++ q :: r = c :: r' ∧ NoNum c := by
  cases p
  · exact ⟨q, r, rfl, hq⟩
  all_goals exact ⟨_, _, rfl, by unfold NoNum; decide⟩

/-! ## Character literals -/

/-- The prefix as the parser names it. -/
def Spec.Prefix.parsed : Prefix → Option CharPrefix
  | .none => .none | .u8 => some .utf8 | .u => some .utf16 | .U => some .utf32 | .L => some .wide

theorem opt_charPrefix (p : Prefix) (r : Str) :
    opt charPrefix (p.text ++ '\'' :: r) = some (p.parsed, '\'' :: r) := by
  cases p <;>
  simp [Prefix.text, Prefix.parsed, opt, charPrefix, Parser.or, Parser.map, tag]

theorem notDigit_squote : ∀ d, ¬ Digit 16 d '\'' := by
  rintro d ⟨_, h⟩
  simp at h
  omega

theorem parseUnprefixed_text {t : Str} {e : Elem} (h : ChrText t e) (hx : TwoHex t) (r : Str) :
    LitChar.parseUnprefixed ('\'' :: t ++ '\'' :: r) = some (e.num, r) := by
  have h1 : or escapedChar (map unescapedChar Char.toNat) (t ++ '\'' :: r) =
      some (e.num, '\'' :: r) := by
    cases h with
    | @raw c h1 h2 h3 =>
      rw [List.cons_append, or_right (escapedChar_none h1)]
      exact map_some (by simp [unescapedChar, satisfy, h1, h2, h3])
    | esc he =>
      exact or_left (escapedChar_escape (he.extend notDigit_squote r) hx)
  have h2 : preceded (tag c!"'") (or escapedChar (map unescapedChar Char.toNat))
      ('\'' :: (t ++ '\'' :: r)) = some (e.num, '\'' :: r) :=
    preceded_some (a := ()) (r := t ++ '\'' :: r) (by simp [tag]) h1
  exact map_some (seq_some (a := e.num) (r := '\'' :: r) (b := ()) h2 (by simp [tag]))

theorem litChar_text (p : Prefix) {t : Str} {e : Elem} (h : ChrText t e) (hx : TwoHex t) :
    LitChar.parseStr (p.text ++ '\'' :: t ++ ['\'']) =
      (LitChar.withPrefix p.parsed e.num).map (·, []) := by
  have h1 := parseUnprefixed_text h hx []
  rw [List.append_assoc]
  have h2 := seq_some (opt_charPrefix p (t ++ ['\''])) h1
  cases hw : LitChar.withPrefix p.parsed e.num with
  | none => exact mapOpt_none h2 hw
  | some x => exact mapOpt_some h2 hw

theorem litString_squote (p : Prefix) (r : Str) :
    LitString.parseStr (p.text ++ '\'' :: r) = none := by
  cases p <;>
  simp [Prefix.text, LitString.parseStr, parseOrdinary, parseUtf8, parseUtf16, parseUtf32, parseWide,
    mapOpt, Parser.or, Parser.map, tag, delimited, terminated, preceded, seq, dquote]

/-! ## Bounds on escapes -/

theorem manyMN_inv {base m : Nat} : ∀ (n k : Nat) (i r : Str) (ds : List Nat),
    manyMN m (digitP base) n k i = some (ds, r) →
    ∃ s, Digits base ds s ∧ i = s ++ r ∧ ds.length ≤ n := by
  intro n
  induction n with
  | zero =>
    intro k i r ds h
    simp only [manyMN] at h
    split at h
    · simp at h
    · simp only [Option.some.injEq, Prod.mk.injEq] at h
      obtain ⟨rfl, rfl⟩ := h
      exact ⟨[], .nil, rfl, by simp⟩
  | succ n ih =>
    intro k i r ds h
    simp only [manyMN] at h
    split at h
    · split at h
      · simp at h
      · simp only [Option.some.injEq, Prod.mk.injEq] at h
        obtain ⟨rfl, rfl⟩ := h
        exact ⟨[], .nil, rfl, by simp⟩
    · rename_i d r' hd
      split at h
      · rename_i ds' r'' hm
        simp only [Option.some.injEq, Prod.mk.injEq] at h
        obtain ⟨rfl, rfl⟩ := h
        obtain ⟨s, h1, h2, h3⟩ := ih _ _ _ _ hm
        cases i with
        | nil => simp [digitP, mapOpt, satisfy] at hd
        | cons c i =>
          simp only [digitP, mapOpt, satisfy, if_true] at hd
          split at hd
          · rename_i hc
            simp only [Option.some.injEq, Prod.mk.injEq] at hd
            obtain ⟨rfl, rfl⟩ := hd
            exact ⟨c :: s, .cons (toDigit_eq_some.1 hc) h1, by rw [h2]; rfl, by simp; omega⟩
          · simp at hd
      · simp at h

theorem digitsP_lt {base m n b : Nat} (hb : 1 ≤ base) (hlim : base ^ n ≤ b) {i r : Str} {v : Nat}
    (h : map (manyMN m (digitP base) n 0) (foldDigits base) i = some (v, r)) : v < b := by
  replace h := map_inv h
  obtain ⟨ds, h, rfl⟩ := h
  obtain ⟨s, h1, _, h3⟩ := manyMN_inv _ _ _ _ _ h
  rw [foldDigits_eq]
  have := positional_lt base h1
  have := Nat.pow_le_pow_right hb h3
  omega

theorem preceded_inv {α β : Type} {p : Parser Char α} {q : Parser Char β} {i r : Str} {b : β}
    (h : preceded p q i = some (b, r)) : ∃ a r', p i = some (a, r') ∧ q r' = some (b, r) := by
  replace h := map_inv h
  obtain ⟨⟨a, b'⟩, h, rfl⟩ := h
  obtain ⟨r', h1, h2⟩ := seq_inv h
  exact ⟨a, r', h1, h2⟩

theorem escapedChar_lt {i r : Str} {v : Nat} (h : escapedChar i = some (v, r)) : v < 2 ^ 32 := by
  obtain ⟨_, r', -, h⟩ := preceded_inv h
  rcases or_inv h with h | ⟨-, h⟩
  · replace h := map_inv h
    obtain ⟨c, -, rfl⟩ := h
    have := char_lt c
    omega
  · rcases or_inv h with h | ⟨-, h⟩
    · rcases or_inv h with h | ⟨-, h⟩
      · exact digitsP_lt (by decide) (by decide) h
      · obtain ⟨_, _, -, h⟩ := preceded_inv h
        exact digitsP_lt (by decide) (by decide) h
    · rcases or_inv h with h | ⟨-, h⟩
      · obtain ⟨_, _, -, h⟩ := preceded_inv h
        exact digitsP_lt (by decide) (by decide) h
      · obtain ⟨_, _, -, h⟩ := preceded_inv h
        exact digitsP_lt (by decide) (by decide) h

theorem parseUnprefixed_lt {i r : Str} {v : Nat} (h : LitChar.parseUnprefixed i = some (v, r)) :
    v < 2 ^ 32 := by
  replace h := map_inv h
  obtain ⟨⟨v', _⟩, h, rfl⟩ := h
  obtain ⟨r', h, -⟩ := seq_inv h
  obtain ⟨_, _, -, h⟩ := preceded_inv h
  rcases or_inv h with h | ⟨-, h⟩
  · exact escapedChar_lt h
  · replace h := map_inv h
    obtain ⟨c, -, h⟩ := h
    have := char_lt c
    simp only at h ⊢
    omega

/-! ## Names of no character -/

/-- A universal character name that names no character. -/
inductive Spec.BadName : Str → Prop
  | ucn4 {ds s} : Digits 16 ds s → s.length = 4 → (∀ c : Char, positional 16 ds ≠ c.toNat) →
      BadName ('\\' :: 'u' :: s)
  | ucn8 {ds s} : Digits 16 ds s → s.length = 8 → (∀ c : Char, positional 16 ds ≠ c.toNat) →
      BadName ('\\' :: 'U' :: s)

theorem escapedChar_bad {t : Str} (h : BadName t) (r : Str) :
    ∃ n, escapedChar (t ++ r) = some (n, r) ∧ charOfNat n = none ∧ 256 ≤ n := by
  have bs : ∀ x : Str, tag c!"\\" ('\\' :: x) = some ((), x) := by intro x; simp [tag]
  have key : ∀ ds : List Nat, (∀ c : Char, positional 16 ds ≠ c.toNat) →
      charOfNat (positional 16 ds) = none ∧ 256 ≤ positional 16 ds := by
    intro ds h
    have hv : ¬ (positional 16 ds).isValidChar := by
      intro hv
      refine h (Char.ofNat (positional 16 ds)) ?_
      simp [Char.ofNat, hv, Char.toNat, Char.ofNatAux]
    refine ⟨by simp [charOfNat, hv], ?_⟩
    apply Nat.le_of_not_lt
    intro hlt
    exact hv (.inl (by omega))
  cases h with
  | @ucn4 ds s hd hl hc =>
    have hlen := Digits.length hd
    refine ⟨positional 16 ds, preceded_some (bs _) ?_, key ds hc⟩
    show or _ _ ('u' :: (s ++ r)) = _
    rw [or_right (map_none (simpleEscape_none (by simp [simpleEscapes]) _)), or_right]
    · rw [← List.cons_append, universalChar4 hd (by omega)]
    · rw [numericEscape, or_right (map_none (manyMN_none (by decide) (noOctal_cons (by decide))))]
      exact preceded_none (by simp [tagNoCase])
  | @ucn8 ds s hd hl hc =>
    have hlen := Digits.length hd
    refine ⟨positional 16 ds, preceded_some (bs _) ?_, key ds hc⟩
    show or _ _ ('U' :: (s ++ r)) = _
    rw [or_right (map_none (simpleEscape_none (by simp [simpleEscapes]) _)), or_right]
    · rw [← List.cons_append, universalChar8 hd (by omega)]
    · rw [numericEscape, or_right (map_none (manyMN_none (by decide) (noOctal_cons (by decide))))]
      exact preceded_none (by simp [tagNoCase])

theorem notDigit_backslash : ∀ d, ¬ Digit 16 d '\\' := by
  rintro d ⟨_, h⟩
  simp at h
  omega

theorem quoted_none {α β : Type} {p : Parser Char α} {F : α → β} {s t : Str} {a : α}
    (h : p (s ++ '\\' :: t) = some (a, '\\' :: t)) :
    delimited dquote (map p F) dquote ('"' :: s ++ '\\' :: t) = none := by
  have h1 : preceded dquote (map p F) ('"' :: (s ++ '\\' :: t)) = some (F a, '\\' :: t) :=
    preceded_some (a := ()) (r := s ++ '\\' :: t) (by simp [dquote, tag]) (map_some h)
  exact map_none (seq_none' h1 (by simp [dquote, tag]))

theorem badName_head {t : Str} (h : BadName t) : ∃ t', t = '\\' :: t' := by
  cases h <;> exact ⟨_, rfl⟩

theorem parseOrdinary_bad {s t : Str} {es : List Elem} (h : StrText TwoHex s es)
    (hcode : ∀ n, .code n ∈ es → n < 256) (ht : BadName t) (r : Str) :
    parseOrdinary ('"' :: s ++ (t ++ r)) = none := by
  obtain ⟨n, h1, h2, h3⟩ := escapedChar_bad ht r
  obtain ⟨t', rfl⟩ := badName_head ht
  rw [List.cons_append] at h1
  obtain ⟨parts, hm, -⟩ := many0_elems_stop ordinaryEscape utf8EncStr id (fun _ h => h)
    (by intro a b; simp [utf8EncStr]) h '\\' (t' ++ r)
    (by
      rw [elemP, or_right (mapOpt_none h1 (by
        simp only [ordinaryEscape, h2]; rw [if_neg (by omega)]; rfl))]
      exact map_none (takeWhile1_stop (by
        intro c r hc
        simp only [List.cons.injEq] at hc
        rw [← hc.1]; rfl)))
    notDigit_backslash
    (by
      intro e he hc
      cases e with
      | raw c => exact absurd rfl (hc c)
      | code n => exact ⟨_, if_pos (hcode n he)⟩
      | ucn c' =>
        simp only [ordinaryEscape, Elem.num, charOfNat_toNat]
        split <;> exact ⟨_, rfl⟩)
  exact quoted_none hm

theorem parseUtf32_bad {s t : Str} {es : List Elem} (h : StrText TwoHex s es)
    (hes : ∀ e ∈ es, ChrOk e) (ht : BadName t) (r : Str) :
    parseUtf32 ('"' :: s ++ (t ++ r)) = none := by
  obtain ⟨n, h1, h2, h3⟩ := escapedChar_bad ht r
  obtain ⟨t', rfl⟩ := badName_head ht
  rw [List.cons_append] at h1
  obtain ⟨parts, hm, -⟩ := many0_elems_stop (fun c => (charOfNat c).map ([·])) id id (fun _ h => h)
    (by intro a b; simp) h '\\' (t' ++ r)
    (by
      rw [elemP, or_right (mapOpt_none h1 (by simp only [h2]; rfl))]
      exact map_none (takeWhile1_stop (by
        intro c r hc
        simp only [List.cons.injEq] at hc
        rw [← hc.1]; rfl)))
    notDigit_backslash
    (by
      intro e he hc
      rw [chrOk_num (hes e he), charOfNat_toNat]
      exact ⟨_, rfl⟩)
  unfold elemP at hm
  rw [map_id_parser] at hm
  exact quoted_none hm

end CMacro
