import Verif.Props.Text

/-!
# C53 for the other kinds of literals

What happens to a universal character name that names no character, for every kind of literal.
-/

namespace CMacro
open Parser
open Spec (Elem StrText ChrText Escape Digits Digit positional TwoHex AnyEsc BadName Prefix simpleEscapes chrToken strToken)

/-- A universal character name and its number. -/
inductive Spec.NamesCode : Str → Nat → Prop
  | ucn4 {ds s} : Digits 16 ds s → s.length = 4 → NamesCode ('\\' :: 'u' :: s) (positional 16 ds)
  | ucn8 {ds s} : Digits 16 ds s → s.length = 8 → NamesCode ('\\' :: 'U' :: s) (positional 16 ds)

open Spec (NamesCode)

theorem badName_iff {t : Str} : BadName t ↔ ∃ n, NamesCode t n ∧ ∀ c : Char, n ≠ c.toNat := by
  constructor
  · intro h
    cases h with
    | ucn4 h1 h2 h3 => exact ⟨_, .ucn4 h1 h2, h3⟩
    | ucn8 h1 h2 h3 => exact ⟨_, .ucn8 h1 h2, h3⟩
  · rintro ⟨n, h, hc⟩
    cases h with
    | ucn4 h1 h2 => exact .ucn4 h1 h2 hc
    | ucn8 h1 h2 => exact .ucn8 h1 h2 hc

theorem escapedChar_code {t : Str} {n : Nat} (h : NamesCode t n) (r : Str) : escapedChar (t ++ r) = some (n, r) := by
  have bs : ∀ x : Str, tag c!"\\" ('\\' :: x) = some ((), x) := by intro x; simp [tag]
  cases h with
  | @ucn4 ds s hd hl =>
    have hlen := Digits.length hd
    refine preceded_some (bs _) ?_
    show or _ _ ('u' :: (s ++ r)) = _
    rw [or_right (map_none (simpleEscape_none (by simp [simpleEscapes]) _)), or_right]
    · rw [← List.cons_append, universalChar4 hd (by omega)]
    · rw [numericEscape, or_right (map_none (manyMN_none (by decide) (noOctal_cons (by decide))))]
      exact preceded_none (by simp [tagNoCase])
  | @ucn8 ds s hd hl =>
    have hlen := Digits.length hd
    refine preceded_some (bs _) ?_
    show or _ _ ('U' :: (s ++ r)) = _
    rw [or_right (map_none (simpleEscape_none (by simp [simpleEscapes]) _)), or_right]
    · rw [← List.cons_append, universalChar8 hd (by omega)]
    · rw [numericEscape, or_right (map_none (manyMN_none (by decide) (noOctal_cons (by decide))))]
      exact preceded_none (by simp [tagNoCase])

theorem code_lt {t : Str} {n : Nat} (h : NamesCode t n) : n < 2 ^ 32 := by
  have := escapedChar_code h []
  exact escapedChar_lt this

theorem code_head {t : Str} {n : Nat} (h : NamesCode t n) : ∃ t', t = '\\' :: t' := by
  cases h <;> exact ⟨_, rfl⟩

/-- A number that is not a character is a surrogate or too large. -/
theorem bad_code {n : Nat} (h : ∀ c : Char, n ≠ c.toNat) : charOfNat n = none ∧ 256 ≤ n := by
  have hv : ¬ n.isValidChar := by
    intro hv
    refine h (Char.ofNat n) ?_
    simp [Char.ofNat, hv, Char.toNat, Char.ofNatAux]
  refine ⟨by simp [charOfNat, hv], ?_⟩
  apply Nat.le_of_not_lt
  intro hlt
  exact hv (.inl (by omega))

/-- **C53** for character literals, exactly: whether it names a character does not matter, only whether the number fits the
kind of the literal. -/
theorem C53_char_exact (p : Prefix) {t : Str} {n : Nat} (h : NamesCode t n) :
    Lit.tryFrom (chrToken p t) = if n ≤ p.max then some (.char (p.lit n)) else none := by
  have h0 : LitChar.parseUnprefixed ('\'' :: (t ++ ['\''])) = some (n, []) := by
    have hq : ∀ x : Str, tag c!"'" ('\'' :: x) = some ((), x) := by intro x; simp [tag]
    refine map_some (a := (n, ())) (seq_some (preceded_some (hq _) (or_left (escapedChar_code h _))) (hq _))
  have h1 : LitChar.parseStr (p.text ++ '\'' :: t ++ ['\'']) = (LitChar.withPrefix p.parsed n).map (·, []) := by
    rw [List.append_assoc]
    have h2 := seq_some (opt_charPrefix p (t ++ ['\''])) h0
    cases hw : LitChar.withPrefix p.parsed n with
    | none => exact mapOpt_none h2 hw
    | some x => exact mapOpt_some h2 hw
  have hlt := code_lt h
  have hw : LitChar.withPrefix p.parsed n = if n ≤ p.max then some (p.lit n) else none := by
    cases p <;> simp only [LitChar.withPrefix, Prefix.parsed, Prefix.max, Prefix.lit]
    all_goals try rfl
    all_goals exact (if_pos (show n ≤ 0xffffffff by omega)).symm
  rw [hw] at h1
  split
  · rename_i hle
    rw [if_pos hle] at h1
    exact lit_char h1
  · rename_i hle
    rw [if_neg hle] at h1
    have hs : LitString.parseStr (chrToken p t) = none := by
      simp only [chrToken, List.append_assoc, List.cons_append]
      exact litString_squote p _
    obtain ⟨c, r, hcr, hn⟩ := prefix_cons p '\'' (by unfold NoNum; decide) (t ++ ['\''])
    have hcr : chrToken p t = c :: r := by
      simp only [chrToken, List.append_assoc, List.cons_append]; exact hcr
    rw [show p.text ++ '\'' :: t ++ ['\''] = chrToken p t from rfl, hcr] at h1
    rw [hcr] at hs ⊢
    exact lit_none hn h1 hs

/-- **C53**, what holds of character literals: ordinary and `u8` ones reject every such name, `u` ones every one with more
than four digits in use. -/
theorem C53_chars_partial {t : Str} (ht : BadName t) :
    Lit.tryFrom (chrToken .none t) = none ∧ Lit.tryFrom (chrToken .u8 t) = none ∧
    ∀ n, NamesCode t n → 0xffff < n → Lit.tryFrom (chrToken .u t) = none := by
  obtain ⟨n, hn, hc⟩ := badName_iff.1 ht
  have h256 := (bad_code hc).2
  refine ⟨?_, ?_, fun n hn hlt => ?_⟩
  · rw [C53_char_exact _ hn, if_neg (by simp only [Prefix.max]; omega)]
  · rw [C53_char_exact _ hn, if_neg (by simp only [Prefix.max]; omega)]
  · rw [C53_char_exact _ hn, if_neg (by simp only [Prefix.max]; omega)]

/-- **C53** is false for every such name in `U` and `L` character literals. -/
theorem C53_chars_false {t : Str} (ht : BadName t) :
    Lit.tryFrom (chrToken .U t) ≠ none ∧ Lit.tryFrom (chrToken .L t) ≠ none := by
  obtain ⟨n, hn, hc⟩ := badName_iff.1 ht
  have hlt := code_lt hn
  constructor
  · rw [C53_char_exact _ hn, if_pos (by simp only [Prefix.max]; omega)]
    simp
  · rw [C53_char_exact _ hn, if_pos (by simp only [Prefix.max]; omega)]
    simp

/-- **C53** for `u` strings: a name with more than four digits in use is rejected. -/
theorem parseUtf16_bad {s t : Str} {n : Nat} {es : List Elem} (h : StrText TwoHex s es)
    (hes : ∀ e ∈ es, ChrOk e) (ht : NamesCode t n) (hc : ∀ c : Char, n ≠ c.toNat) (hn : 0xffff < n) (r : Str) :
    parseUtf16 ('"' :: s ++ (t ++ r)) = none := by
  have h1 := escapedChar_code ht r
  have h2 := (bad_code hc).1
  obtain ⟨t', rfl⟩ := code_head ht
  rw [List.cons_append] at h1
  obtain ⟨parts, hm, -⟩ := many0_elems_stop utf16Escape Part16.str Part16.toVec (fun _ h => h)
    (by intro a b; simp [Part16.toVec]) h '\\' (t' ++ r)
    (by
      rw [elemP, or_right (mapOpt_none h1 (by
        simp only [utf16Escape, h2]; rw [if_neg (by omega)]; rfl))]
      exact map_none (takeWhile1_stop (by
        intro c r hc
        simp only [List.cons.injEq] at hc
        rw [← hc.1]; rfl)))
    notDigit_backslash
    (by
      intro e he _
      rw [chrOk_num (hes e he)]
      by_cases hlt : e.chr.toNat < 65536
      · exact ⟨.vec [e.chr.toNat], if_pos hlt⟩
      · refine ⟨.vec (utf16Enc e.chr), ?_⟩
        simp only [utf16Escape, charOfNat_toNat]
        rw [if_neg hlt]; rfl)
  exact mapOpt_none' (quoted_none hm)

/-- Reading the elements of a string before text whose elements are known. -/
theorem many0_elems_then {γ β : Type} (f : Nat → Option γ) (g : Str → γ) (w : γ → List β) {ok : Str → Prop} (hok : ∀ t, ok t → TwoHex t)
    (hg : ∀ a b, w (g (a ++ b)) = w (g a) ++ w (g b)) {s : Str} {es : List Elem}
    (h : StrText ok s es) (z : Char) (t : Str) {tail : List γ} {rest : Str}
    (hz : many0 (elemP f g) (z :: t) = some (tail, rest))
    (hzd : ∀ d, ¬ Digit 16 d z) :
    (∀ e ∈ es, (∀ c, e ≠ .raw c) → ∃ p, f e.num = some p) →
    ∃ parts, many0 (elemP f g) (s ++ z :: t) = some (parts, rest) ∧
      parts.flatMap w = (es.flatMap fun e =>
        match e with
        | .raw c => w (g [c])
        | e => ((f e.num).map w).getD []) ++ tail.flatMap w := by
  have hsh := shrinks_elemP f g
  induction h with
  | nil =>
    intro _
    exact ⟨tail, hz, rfl⟩
  | @raw c s es h1 h2 h3 _ ih =>
    intro hf
    obtain ⟨parts, hm, hp⟩ := ih (fun e he => hf e (List.mem_cons_of_mem _ he))
    have hpc : plainC c = true := plainC_iff.2 ⟨h1, h2, h3⟩
    have hP : ∀ r tw dw, r.takeWhile plainC = tw → r.dropWhile plainC = dw →
        elemP f g (c :: r) = some (g (c :: tw), dw) := by
      intro r tw dw htw hdw
      rw [elemP, or_right (mapOpt_none' (escapedChar_none h1))]
      refine map_some ?_
      rw [strRun_eq]
      simp [takeWhile1, hpc, htw, hdw]
    cases hi : s ++ z :: t with
    | nil => simp at hi
    | cons x r =>
      rw [hi] at hm
      by_cases hx : plainC x = true
      · have hx' := plainC_iff.1 hx
        have hPx : elemP f g (x :: r) = some (g (x :: r.takeWhile plainC), r.dropWhile plainC) := by
          rw [elemP, or_right (mapOpt_none' (escapedChar_none hx'.1))]
          refine map_some ?_
          rw [strRun_eq]
          simp [takeWhile1, hx]
        have hlt : (r.dropWhile plainC).length ≤ r.length := by
          have := List.takeWhile_append_dropWhile (p := plainC) (l := r)
          have := congrArg List.length this
          rw [List.length_append] at this; omega
        rw [many0_eq hsh, hPx] at hm
        simp only [List.length_cons] at hm
        rw [if_neg (by omega)] at hm
        split at hm
        · rename_i q r' hq
          simp only [Option.some.injEq, Prod.mk.injEq] at hm
          obtain ⟨rfl, rfl⟩ := hm
          refine ⟨g (c :: x :: r.takeWhile plainC) :: q, ?_, ?_⟩
          · rw [List.cons_append, hi]
            refine many0_some hsh (hP _ _ _ ?_ ?_) ?_ hq
            · simp [hx]
            · simp [hx]
            · simp; omega
          · rw [List.flatMap_cons, List.flatMap_cons, List.append_assoc, ← hp, List.flatMap_cons]
            simp only
            rw [← List.append_assoc, ← hg]
            rfl
        · simp at hm
      · have hx : plainC x = false := by simpa using hx
        refine ⟨g [c] :: parts, ?_, ?_⟩
        · rw [List.cons_append, hi]
          refine many0_some hsh (hP _ [] (x :: r) ?_ ?_) ?_ hm
          · simp [hx]
          · simp [hx]
          · simp
        · rw [List.flatMap_cons, hp, List.flatMap_cons, List.append_assoc]
  | @esc t' e s es he ht _ ih =>
    intro hf
    have hraw : ∀ c, e ≠ .raw c := by intro c; cases he <;> simp
    obtain ⟨parts, hm, hp⟩ := ih (fun e he => hf e (List.mem_cons_of_mem _ he))
    obtain ⟨p, hfp⟩ := hf e List.mem_cons_self hraw
    have he' : Escape t' e (s ++ z :: t) := he.extend hzd t
    have hP : elemP f g (t' ++ (s ++ z :: t)) = some (p, s ++ z :: t) :=
      or_left (mapOpt_some (escapedChar_escape he' (hok _ ht)) hfp)
    refine ⟨p :: parts, ?_, ?_⟩
    · rw [List.append_assoc]
      refine many0_some hsh hP ?_ hm
      have := escape_ne_nil he
      rw [List.length_append (as := t')]
      omega
    · rw [List.flatMap_cons, hp, List.flatMap_cons, List.append_assoc]
      cases e with
      | raw c => exact absurd rfl (hraw c)
      | code n => simp [hfp]
      | ucn c => simp [hfp]

theorem elems16 {es : List Elem} (hes : ∀ e ∈ es, ChrOk e) :
    (es.flatMap fun e => match e with
      | .raw c => (Part16.str [c]).toVec
      | e => ((utf16Escape e.num).map Part16.toVec).getD []) = (es.map Elem.chr).flatMap utf16Enc := by
  induction es with
  | nil => rfl
  | cons e es ih =>
    rw [List.flatMap_cons, ih (fun x hx => hes x (List.mem_cons_of_mem _ hx)), List.map_cons, List.flatMap_cons]
    congr 1
    have key : ((utf16Escape e.num).map Part16.toVec).getD [] = utf16Enc e.chr := by
      rw [chrOk_num (hes e List.mem_cons_self)]
      by_cases hlt : e.chr.toNat < 65536
      · rw [utf16Escape, if_pos hlt]
        simp only [Option.map_some, Option.getD_some, Part16.toVec, utf16Enc]
        rw [if_pos hlt]
      · rw [utf16Escape, if_neg hlt, charOfNat_toNat]; rfl
    cases e with
    | raw c => simp [Part16.toVec, Elem.chr]
    | code n => exact key
    | ucn c => exact key

theorem utf16Dec_encStr_append (s : Str) {us : List Nat} (h : utf16Dec us = none) :
    utf16Dec (s.flatMap utf16Enc ++ us) = none := by
  induction s with
  | nil => exact h
  | cons c s ih => rw [List.flatMap_cons, List.append_assoc, utf16Dec_enc, ih]; rfl

/-- A surrogate before properly encoded text cannot be decoded. -/
theorem utf16Dec_lone {n : Nat} (h1 : 0xD800 ≤ n) (h2 : n < 0xE000) (s : Str) : utf16Dec (n :: s.flatMap utf16Enc) = none := by
  rw [utf16Dec.eq_def]
  simp only
  by_cases hh : n < 0xDC00
  · rw [if_pos ⟨h1, hh⟩]
    cases s with
    | nil => rfl
    | cons c s =>
      rw [List.flatMap_cons, utf16Enc]
      have hc := c.valid
      have hn : c.toNat < 0xD800 ∨ 0xDFFF < c.toNat ∧ c.toNat < 0x110000 := hc
      by_cases hlt : c.toNat < 65536
      · rw [if_pos hlt, List.cons_append]
        simp only
        rw [if_neg (by omega)]
      · rw [if_neg hlt, List.cons_append]
        simp only
        rw [if_neg (by omega)]
  · rw [if_neg (by omega), if_pos (by omega)]

/-- One bad name in a `u` string. -/
theorem parseUtf16_lone {s t r : Str} {n : Nat} {es fs : List Elem} (h : StrText TwoHex s es) (h' : StrText TwoHex r fs)
    (hes : ∀ e ∈ es, ChrOk e) (hfs : ∀ e ∈ fs, ChrOk e) (ht : NamesCode t n) (hc : ∀ c : Char, n ≠ c.toNat) (x : Str) :
    parseUtf16 ('"' :: s ++ (t ++ (r ++ '"' :: x))) = none := by
  by_cases hn : 0xffff < n
  · exact parseUtf16_bad h hes ht hc hn _
  have hsur : 0xD800 ≤ n ∧ n < 0xE000 := by
    have hv : ¬ n.isValidChar := by
      intro hv
      refine hc (Char.ofNat n) ?_
      simp [Char.ofNat, hv, Char.toNat, Char.ofNatAux]
    simp only [Nat.isValidChar] at hv
    omega
  have h1 := escapedChar_code ht (r ++ '"' :: x)
  have hf : ∀ (l : List Elem), (∀ e ∈ l, ChrOk e) → ∀ e ∈ l, (∀ c, e ≠ .raw c) → ∃ p, utf16Escape e.num = some p := by
    intro l hl e he _
    rw [chrOk_num (hl e he)]
    by_cases hlt : e.chr.toNat < 65536
    · exact ⟨.vec [e.chr.toNat], if_pos hlt⟩
    · refine ⟨.vec (utf16Enc e.chr), ?_⟩
      simp only [utf16Escape, charOfNat_toNat]
      rw [if_neg hlt]; rfl
  obtain ⟨q, hq, hqv⟩ := many0_elems_then utf16Escape Part16.str Part16.toVec (fun _ h => h)
    (by intro a b; simp [Part16.toVec]) h' '"' x (many0_none (elemP_quote _ _ x)) notDigit_quote (hf fs hfs)
  rw [elems16 hfs, List.flatMap_nil, List.append_nil] at hqv
  have hlen : (r ++ '"' :: x).length ≤ (t ++ (r ++ '"' :: x)).length := by simp
  obtain ⟨t', rfl⟩ := code_head ht
  have hmid := many0_some (shrinks_elemP utf16Escape Part16.str)
    (or_left (mapOpt_some h1 (if_pos (by omega : n < 65536)))) (by simp; omega) hq
  rw [List.cons_append] at hmid
  obtain ⟨parts, hm, hmv⟩ := many0_elems_then utf16Escape Part16.str Part16.toVec (fun _ h => h)
    (by intro a b; simp [Part16.toVec]) h '\\' (t' ++ (r ++ '"' :: x)) hmid notDigit_backslash (hf es hes)
  rw [elems16 hes, List.flatMap_cons, hqv] at hmv
  have hd : delimited dquote (map (many0 (elemP utf16Escape Part16.str)) (fun ps => ps.foldl Part16.append (.str []))) dquote
      ('"' :: s ++ '\\' :: (t' ++ (r ++ '"' :: x))) = some (parts.foldl Part16.append (.str []), x) := by
    have hqq : ∀ x : Str, dquote ('"' :: x) = some ((), x) := by intro x; simp [dquote, tag]
    exact map_some (a := (_, ())) (seq_some (preceded_some (hqq _) (map_some hm)) (hqq _))
  refine mapOpt_none hd ?_
  rw [Part16.finish_eq, Part16.foldl_toVec, hmv]
  exact utf16Dec_encStr_append (es.map Elem.chr) (utf16Dec_lone hsur.1 hsur.2 (fs.map Elem.chr))

/-- **C53** for `u` strings: between texts that are read correctly, one such name is rejected. -/
theorem C53_u_strings_partial (s t r : Str) (es fs : List Elem) (ht : BadName t) (h : StrText TwoHex s es)
    (h' : StrText TwoHex r fs) (hes : ∀ n, .code n ∈ es → n < 256) (hfs : ∀ n, .code n ∈ fs → n < 256) :
    Lit.tryFrom (strToken .u (s ++ t ++ r)) = none := by
  have hok : ∀ l : List Elem, (∀ n, .code n ∈ l → n < 256) → ∀ e ∈ l, ChrOk e := by
    intro l hl e he
    cases e with
    | raw c => trivial
    | code n => exact .inl (by have := hl n he; omega)
    | ucn c => trivial
  obtain ⟨n, hn, hc⟩ := badName_iff.1 ht
  have h1 := parseUtf16_lone h h' (hok es hes) (hok fs hfs) hn hc []
  have hp : LitString.parseStr (Prefix.u.text ++ '"' :: (s ++ (t ++ (r ++ ['"'])))) = none := by
    rw [litString_eq .u]; exact map_none h1
  have hd := litChar_dquote .u (s ++ (t ++ (r ++ ['"'])))
  obtain ⟨c, x, hcr, hn⟩ := prefix_cons .u '"' (by unfold NoNum; decide) (s ++ (t ++ (r ++ ['"'])))
  have : strToken .u (s ++ t ++ r) = Prefix.u.text ++ '"' :: (s ++ (t ++ (r ++ ['"']))) := by
    simp [strToken]
  rw [this]
  rw [hcr] at hp hd ⊢
  exact lit_none hn hd hp

/-- **C53** is false of two such names in a row in a `u` string: they are taken for the halves of one character. -/
theorem C53_u_strings_false :
    BadName c!"\\uD83D" ∧ Lit.tryFrom (strToken .u c!"\\uD83D\\uDE00") = some (.string (.utf16 c!"😀")) := by
  refine ⟨.ucn4 (ds := [13, 8, 3, 13]) (s := c!"D83D") ?_ rfl ?_, by decide +kernel⟩
  · exact .cons ⟨by decide, .inr (by decide)⟩ (.cons ⟨by decide, .inl (by decide)⟩ (.cons ⟨by decide, .inl (by decide)⟩
      (.cons ⟨by decide, .inr (by decide)⟩ .nil)))
  · intro c h
    have := char_not_surrogate c
    have : positional 16 [13, 8, 3, 13] = 0xD83D := by decide
    omega

/-- **C53** is false of every such name in an `L` string. -/
theorem C53_wide_false {t : Str} (ht : BadName t) : Lit.tryFrom (strToken .L t) ≠ none := by
  obtain ⟨n, hn, -⟩ := badName_iff.1 ht
  have hqq : ∀ x : Str, dquote ('"' :: x) = some ((), x) := by intro x; simp [dquote, tag]
  have h1 : parseWide ('"' :: (t ++ ['"'])) = some ([n], []) := by
    refine map_some (a := (_, ())) (seq_some (preceded_some (hqq _) ?_) (hqq _))
    have hsh : Shrinks (or escapedChar (map (satisfy plainC) Char.toNat)) :=
      shrinks_escapedChar.or ((Shrinks.satisfy _).map _)
    refine many0_some hsh (or_left (escapedChar_code hn ['"'])) ?_ (many0_none ?_)
    · obtain ⟨t', rfl⟩ := code_head hn
      simp
    · rw [or_right (escapedChar_none (by decide))]
      exact map_none (by simp [satisfy, plainC])
  have h2 : LitString.parseStr (Prefix.L.text ++ '"' :: (t ++ ['"'])) = some (.wide [n], []) := by
    rw [litString_eq .L]; exact map_some h1
  have hd := litChar_dquote .L (t ++ ['"'])
  have : strToken .L t = Prefix.L.text ++ '"' :: (t ++ ['"']) := by simp [strToken]
  rw [this, lit_string hd h2]
  simp

example : Lit.tryFrom c!"'\\UFFFFFFFF'" = none := (C53_chars_partial badName_max).1
example : Lit.tryFrom c!"u\"a\\uD83Db\"" = none :=
  C53_u_strings_partial c!"a" c!"\\uD83D" c!"b" [.raw 'a'] [.raw 'b'] C53_u_strings_false.1
    (.raw (by decide) (by decide) (by decide) .nil) (.raw (by decide) (by decide) (by decide) .nil) (by simp) (by simp)
example : Lit.tryFrom c!"L\"\\UFFFFFFFF\"" = some (.string (.wide [0xffffffff])) := by decide +kernel
example : Lit.tryFrom c!"L\"\\UFFFFFFFF\"" ≠ none := C53_wide_false badName_max
example : Lit.tryFrom c!"u'\\uD83D'" = some (.char (.utf16 0xD83D)) := by decide +kernel

end CMacro
