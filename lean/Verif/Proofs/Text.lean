import Verif.Proofs.Number
import Verif.Spec.Text

/-! # The contents of string and character literals -/

namespace CMacro
open Parser Spec

/-! ## UTF-8 -/

theorem char_lt (c : Char) : c.toNat < 0x110000 := by
  have h : c.toNat.isValidChar := c.valid
  rcases h with h | h <;> omega

theorem char_not_surrogate (c : Char) : c.toNat < 0xD800 ∨ 0xE000 ≤ c.toNat := by
  have h : c.toNat.isValidChar := c.valid
  rcases h with h | h <;> omega

theorem utf8Enc_eq (c : Char) : utf8Enc c = String.utf8EncodeChar c := by
  have h := char_lt c
  have hv : c.val.toNat = c.toNat := rfl
  simp only [utf8Enc, String.utf8EncodeChar, hv]
  by_cases h1 : c.toNat < 0x80
  · rw [if_pos h1, if_pos (show c.toNat ≤ 127 by omega)]
  · rw [if_neg h1, if_neg (show ¬ c.toNat ≤ 127 by omega)]
    by_cases h2 : c.toNat < 0x800
    · rw [if_pos h2, if_pos (show c.toNat ≤ 2047 by omega), Nat.mod_eq_of_lt (by omega : c.toNat / 64 < 32),
        Nat.add_comm 0xC0, Nat.add_comm 0x80]
    · rw [if_neg h2, if_neg (show ¬ c.toNat ≤ 2047 by omega)]
      by_cases h3 : c.toNat < 0x10000
      · rw [if_pos h3, if_pos (show c.toNat ≤ 65535 by omega), Nat.mod_eq_of_lt (by omega : c.toNat / 4096 < 16),
          Nat.add_comm 0xE0, Nat.add_comm 0x80, Nat.add_comm 0x80]
      · rw [if_neg h3, if_neg (show ¬ c.toNat ≤ 65535 by omega), Nat.mod_eq_of_lt (by omega : c.toNat / 262144 < 8),
          Nat.add_comm 0xF0, Nat.add_comm 0x80, Nat.add_comm 0x80, Nat.add_comm 0x80]

theorem toNat_ofNat {n : Nat} (h : n < 256) : (UInt8.ofNat n).toNat = n := by
  simp [UInt8.toNat_ofNat', Nat.mod_eq_of_lt h]

theorem isCont_ofNat {n : Nat} (h : n < 64) : isCont (UInt8.ofNat (0x80 + n)) = true := by
  simp only [isCont, toNat_ofNat (by omega : 0x80 + n < 256), Bool.and_eq_true, decide_eq_true_eq]
  omega

/-- Decoding undoes encoding, one character. -/
theorem utf8Dec_enc (c : Char) (r : List UInt8) :
    utf8Dec (utf8Enc c ++ r) = (utf8Dec r).map (c :: ·) := by
  have h := char_lt c
  have hv : c.toNat.isValidChar := c.valid
  have hs := char_not_surrogate c
  simp only [utf8Enc]
  split
  · rename_i h1
    rw [List.cons_append, utf8Dec.eq_def]
    simp only [toNat_ofNat (by omega : c.toNat < 256), h1, if_true, List.nil_append, Char.ofNat_toNat]
  · rename_i h1
    split
    · rename_i h2
      rw [List.cons_append, List.cons_append, utf8Dec.eq_def]
      have e0 : (UInt8.ofNat (0xC0 + c.toNat / 64)).toNat = 0xC0 + c.toNat / 64 :=
        toNat_ofNat (by omega)
      have e1 : (UInt8.ofNat (0x80 + c.toNat % 64)).toNat = 0x80 + c.toNat % 64 :=
        toNat_ofNat (by omega)
      have hn : (0xC0 + c.toNat / 64 - 0xC0) * 64 + (0x80 + c.toNat % 64 - 0x80) = c.toNat := by
        omega
      simp only [e0, e1, isCont_ofNat (Nat.mod_lt _ (by decide) : c.toNat % 64 < 64), if_true,
        List.nil_append, hn, Char.ofNat_toNat]
      rw [if_neg (by omega), if_neg (by omega), if_pos (by omega), if_pos (by omega)]
    · rename_i h2
      split
      · rename_i h3
        rw [List.cons_append, List.cons_append, List.cons_append, utf8Dec.eq_def]
        have e0 : (UInt8.ofNat (0xE0 + c.toNat / 4096)).toNat = 0xE0 + c.toNat / 4096 :=
          toNat_ofNat (by omega)
        have e1 : (UInt8.ofNat (0x80 + c.toNat / 64 % 64)).toNat = 0x80 + c.toNat / 64 % 64 :=
          toNat_ofNat (by omega)
        have e2 : (UInt8.ofNat (0x80 + c.toNat % 64)).toNat = 0x80 + c.toNat % 64 :=
          toNat_ofNat (by omega)
        have hn : (0xE0 + c.toNat / 4096 - 0xE0) * 4096 + (0x80 + c.toNat / 64 % 64 - 0x80) * 64 +
            (0x80 + c.toNat % 64 - 0x80) = c.toNat := by omega
        simp only [e0, e1, e2, isCont_ofNat (Nat.mod_lt _ (by decide) : c.toNat % 64 < 64),
          isCont_ofNat (Nat.mod_lt _ (by decide) : c.toNat / 64 % 64 < 64), if_true,
          List.nil_append, hn, Char.ofNat_toNat, Bool.and_self]
        rw [if_neg (by omega), if_neg (by omega), if_neg (by omega), if_pos (by omega),
          if_pos ⟨by omega, hv⟩]
      · rename_i h3
        rw [List.cons_append, List.cons_append, List.cons_append, List.cons_append, utf8Dec.eq_def]
        have e0 : (UInt8.ofNat (0xF0 + c.toNat / 262144)).toNat = 0xF0 + c.toNat / 262144 :=
          toNat_ofNat (by omega)
        have e1 : (UInt8.ofNat (0x80 + c.toNat / 4096 % 64)).toNat = 0x80 + c.toNat / 4096 % 64 :=
          toNat_ofNat (by omega)
        have e2 : (UInt8.ofNat (0x80 + c.toNat / 64 % 64)).toNat = 0x80 + c.toNat / 64 % 64 :=
          toNat_ofNat (by omega)
        have e3 : (UInt8.ofNat (0x80 + c.toNat % 64)).toNat = 0x80 + c.toNat % 64 :=
          toNat_ofNat (by omega)
        have hn : (0xF0 + c.toNat / 262144 - 0xF0) * 262144 +
            (0x80 + c.toNat / 4096 % 64 - 0x80) * 4096 + (0x80 + c.toNat / 64 % 64 - 0x80) * 64 +
            (0x80 + c.toNat % 64 - 0x80) = c.toNat := by omega
        simp only [e0, e1, e2, e3, isCont_ofNat (Nat.mod_lt _ (by decide) : c.toNat % 64 < 64),
          isCont_ofNat (Nat.mod_lt _ (by decide) : c.toNat / 64 % 64 < 64),
          isCont_ofNat (Nat.mod_lt _ (by decide) : c.toNat / 4096 % 64 < 64), if_true,
          List.nil_append, hn, Char.ofNat_toNat, Bool.and_self]
        rw [if_neg (by omega), if_neg (by omega), if_neg (by omega), if_neg (by omega),
          if_pos (by omega), if_pos ⟨by omega, hv⟩]

theorem utf8Dec_encStr (s : Str) : utf8Dec (utf8EncStr s) = some s := by
  induction s with
  | nil => simp [utf8EncStr, utf8Dec]
  | cons c s ih =>
    have : utf8EncStr (c :: s) = utf8Enc c ++ utf8EncStr s := by simp [utf8EncStr]
    rw [this, utf8Dec_enc, ih]; rfl

/-! ## UTF-16 -/

theorem utf16Dec_enc (c : Char) (r : List Nat) :
    utf16Dec (utf16Enc c ++ r) = (utf16Dec r).map (c :: ·) := by
  have h := char_lt c
  have hs := char_not_surrogate c
  simp only [utf16Enc]
  split
  · rename_i h1
    rw [List.cons_append, utf16Dec.eq_def]
    simp only
    rw [if_neg (by omega), if_neg (by omega), List.nil_append, Char.ofNat_toNat]
  · rename_i h1
    rw [List.cons_append, List.cons_append, utf16Dec.eq_def]
    simp only
    rw [if_pos (by omega), if_pos (by omega)]
    have hn : 0x10000 + (0xD800 + (c.toNat - 0x10000) / 1024 - 0xD800) * 1024 +
        (0xDC00 + (c.toNat - 0x10000) % 1024 - 0xDC00) = c.toNat := by omega
    rw [hn, Char.ofNat_toNat, List.nil_append]

theorem utf16Dec_encStr (s : Str) : utf16Dec (s.flatMap utf16Enc) = some s := by
  induction s with
  | nil => simp [utf16Dec]
  | cons c s ih => rw [List.flatMap_cons, utf16Dec_enc, ih]; rfl

/-! ## Escapes -/

theorem simpleEscape_mem {k : Char} {n : Nat} (h : (k, n) ∈ simpleEscapes) (r : Str) :
    map simpleEscape Char.toNat (k :: r) = some (n, r) := by
  simp only [simpleEscapes, List.mem_cons, Prod.mk.injEq, List.not_mem_nil, or_false] at h
  rcases h with ⟨rfl, rfl⟩ | ⟨rfl, rfl⟩ | ⟨rfl, rfl⟩ | ⟨rfl, rfl⟩ | ⟨rfl, rfl⟩ | ⟨rfl, rfl⟩ |
    ⟨rfl, rfl⟩ | ⟨rfl, rfl⟩ | ⟨rfl, rfl⟩ | ⟨rfl, rfl⟩ | ⟨rfl, rfl⟩ | ⟨rfl, rfl⟩ <;> rfl

theorem simpleEscape_none {k : Char} (h : ∀ n, (k, n) ∉ simpleEscapes) (r : Str) :
    simpleEscape (k :: r) = none := by
  unfold simpleEscape
  split <;> first
    | rfl
    | (rename_i heq
       simp only [List.cons.injEq] at heq
       obtain ⟨rfl, -⟩ := heq
       simp [simpleEscapes] at h)

theorem digitP_none {base : Nat} {s : Str} (h : NoDigit base s) : digitP base s = none := by
  cases s with
  | nil => simp [digitP, mapOpt, satisfy]
  | cons c s =>
    have : toDigit base c = none := by
      cases ht : toDigit base c with
      | none => rfl
      | some d => exact absurd (toDigit_eq_some.1 ht) (h c s d rfl)
    simp [digitP, mapOpt, satisfy, this]

/-- Reading up to `n` digits that are followed by a non-digit. -/
theorem manyMN_upto {base m : Nat} : ∀ {ds : List Nat} {hs : Str} (s : Str) (n k : Nat),
    Digits base ds hs → m ≤ k + ds.length → ds.length ≤ n →
    (ds.length = n ∨ NoDigit base s) →
    manyMN m (digitP base) n k (hs ++ s) = some (ds, s) := by
  intro ds
  induction ds with
  | nil =>
    intro hs s n k h hm hn hor
    cases h
    have hm' : ¬ k < m := by simp at hm; omega
    cases n with
    | zero => simp [manyMN, hm']
    | succ n =>
      have hnd : NoDigit base s := by rcases hor with h | h; simp at h; exact h
      simp [manyMN, digitP_none hnd, hm']
  | cons d ds ih =>
    intro hs s n k h hm hn hor
    cases h with
    | cons hd hds =>
      obtain ⟨n, rfl⟩ : ∃ j, n = j + 1 := ⟨n - 1, by simp at hn; omega⟩
      simp only [manyMN, List.cons_append, digitP_some hd]
      rw [ih s n (k + 1) hds (by simp at hm; omega) (by simp at hn; omega)
        (by rcases hor with h | h; exact .inl (by simp at h; omega); exact .inr h)]

theorem digits_ne_nil {base : Nat} {ds : List Nat} {s : Str} (h : Digits base ds s) (hs : s ≠ []) :
    ∃ d ds' c s', ds = d :: ds' ∧ s = c :: s' ∧ Digit base d c := by
  cases h with
  | nil => exact absurd rfl hs
  | cons hd _ => exact ⟨_, _, _, _, rfl, rfl, hd⟩

theorem not_simple_of_octal {d : Nat} {c : Char} (h : Digit 8 d c) : ∀ n, (c, n) ∉ simpleEscapes := by
  intro n hm
  have h1 : ∀ p ∈ simpleEscapes, p.1.toNat < 48 ∨ 55 < p.1.toNat := by decide
  have := h1 _ hm
  have := h.1
  have := h.2
  simp only at *
  omega

theorem manyMN_none {base m n : Nat} (hm : 0 < m) {s : Str} (h : NoDigit base s) :
    manyMN m (digitP base) n 0 s = none := by
  cases n <;> simp [manyMN, digitP_none h, hm]

theorem noOctal_cons {c : Char} {r : Str} (h : 55 < c.toNat) : NoDigit 8 (c :: r) := by
  intro c' r' d hcr hd
  simp only [List.cons.injEq] at hcr
  have := hd.1
  have := hd.2
  rw [← hcr.1] at this
  omega

/-- An escape is read as its number. -/
theorem escapedChar_escape {t r : Str} {e : Elem} (h : Escape t e r) (hx : TwoHex t) :
    escapedChar (t ++ r) = some (e.num, r) := by
  have bs : ∀ x : Str, tag c!"\\" ('\\' :: x) = some ((), x) := by intro x; simp [tag]
  cases h with
  | simple hk => exact preceded_some (bs _) (or_left (simpleEscape_mem hk r))
  | @octal ds s _ hd hne hl hor =>
    obtain ⟨d, ds', c, s', rfl, rfl, hdc⟩ := digits_ne_nil hd hne
    refine preceded_some (bs _) ?_
    show or _ _ (c :: (s' ++ r)) = _
    rw [or_right (map_none (simpleEscape_none (not_simple_of_octal hdc) _))]
    refine or_left (or_left ?_)
    have hlen := Digits.length hd
    have := manyMN_upto (m := 1) r 3 0 hd (by simp) (by omega)
      (by rcases hor with h | h; exact .inl (by omega); exact .inr h)
    rw [List.cons_append] at this
    rw [map_some this, foldDigits_eq]; rfl
  | @hex ds s _ hd hne hnd =>
    have hl : s.length = 2 := hx s rfl
    have hlen := Digits.length hd
    refine preceded_some (bs _) ?_
    show or _ _ ('x' :: (s ++ r)) = _
    rw [or_right (map_none (simpleEscape_none (by simp [simpleEscapes]) _))]
    refine or_left ?_
    rw [numericEscape, or_right (map_none (manyMN_none (by decide) (noOctal_cons (by decide))))]
    have := manyMN_upto (m := 2) r 2 0 hd (by omega) (by omega) (.inl (by omega))
    refine preceded_some (a := ()) (r := s ++ r) (by simp [tagNoCase]) ?_
    rw [map_some this, foldDigits_eq]; rfl
  | @ucn4 ds s _ c hd hl hc =>
    have hlen := Digits.length hd
    refine preceded_some (bs _) ?_
    show or _ _ ('u' :: (s ++ r)) = _
    rw [or_right (map_none (simpleEscape_none (by simp [simpleEscapes]) _))]
    rw [or_right]
    · rw [← List.cons_append, universalChar4 hd (by omega), hc]; rfl
    · rw [numericEscape, or_right (map_none (manyMN_none (by decide) (noOctal_cons (by decide))))]
      exact preceded_none (by simp [tagNoCase])
  | @ucn8 ds s _ c hd hl hc =>
    have hlen := Digits.length hd
    refine preceded_some (bs _) ?_
    show or _ _ ('U' :: (s ++ r)) = _
    rw [or_right (map_none (simpleEscape_none (by simp [simpleEscapes]) _))]
    rw [or_right]
    · rw [← List.cons_append, universalChar8 hd (by omega), hc]; rfl
    · rw [numericEscape, or_right (map_none (manyMN_none (by decide) (noOctal_cons (by decide))))]
      exact preceded_none (by simp [tagNoCase])

theorem escapedChar_none {c : Char} {r : Str} (h : c ≠ '\\') : escapedChar (c :: r) = none :=
  preceded_none (by simp [tag, Ne.symm h])

theorem escape_ne_nil {t r : Str} {e : Elem} (h : Escape t e r) : 0 < t.length := by
  cases h <;> simp

theorem shrinks_simpleEscape : Shrinks simpleEscape := by
  intro i a r h
  unfold simpleEscape at h
  split at h <;> simp only [Option.some.injEq, Prod.mk.injEq, reduceCtorEq] at h <;>
    (rw [← h.2]; simp)

theorem shrinks_escapedChar : Shrinks escapedChar :=
  (Shrinks.tag _).preceded ((shrinks_simpleEscape.map _).or
    (((((Shrinks.manyMN _ (shrinks_digitP 8) _ _).map _)).or
      ((Shrinks.tagNoCase _).preceded ((Shrinks.manyMN _ (shrinks_digitP 16) _ _).map _))).or
      shrinks_universalChar))

/-- An escape stays the same when more text follows what follows it. -/
theorem Spec.Escape.extend {t' s : Str} {e : Elem} (he : Escape t' e s) {z : Char}
    (hzd : ∀ d, ¬ Digit 16 d z) (t : Str) : Escape t' e (s ++ z :: t) := by
  have key : ∀ b, b ≤ 16 → NoDigit b s → NoDigit b (s ++ z :: t) := by
    intro b hb16 hb c r d hcr hd
    cases s with
    | nil =>
      simp only [List.nil_append, List.cons.injEq] at hcr
      rw [← hcr.1] at hd
      exact hzd d ⟨by have := hd.1; omega, hd.2⟩
    | cons a s =>
      simp only [List.cons_append, List.cons.injEq] at hcr
      exact hb a s d rfl (hcr.1 ▸ hd)
  cases he with
  | simple h => exact .simple h
  | octal h1 h2 h3 h4 => exact .octal h1 h2 h3 (h4.imp id (key _ (by decide)))
  | hex h1 h2 h3 => exact .hex h1 h2 (key _ (by decide) h3)
  | ucn4 h1 h2 h3 => exact .ucn4 h1 h2 h3
  | ucn8 h1 h2 h3 => exact .ucn8 h1 h2 h3

/-! ## Runs -/

/-- The characters that may stand for themselves. -/
def plainC (c : Char) : Bool := c != '\\' && c != '"' && c != '\n'

theorem strRun_eq : strRun = takeWhile1 plainC := rfl

theorem plainC_iff {c : Char} : plainC c = true ↔ c ≠ '\\' ∧ c ≠ '"' ∧ c ≠ '\n' := by
  simp [plainC, and_assoc]

section
variable {γ β : Type} (f : Nat → Option γ) (g : Str → γ) (w : γ → List β)

/-- The element parser shared by the string kinds. -/
abbrev elemP : Parser Char γ := or (mapOpt escapedChar f) (map strRun g)

theorem shrinks_elemP : Shrinks (elemP f g) :=
  (shrinks_escapedChar.mapOpt _).or ((Shrinks.takeWhile1 _).map _)

/-- Reading the elements of a string up to a character at which the element parser stops. -/
theorem many0_elems_stop {ok : Str → Prop} (hok : ∀ t, ok t → TwoHex t)
    (hg : ∀ a b, w (g (a ++ b)) = w (g a) ++ w (g b)) {s : Str} {es : List Elem}
    (h : StrText ok s es) (z : Char) (t : Str) (hz : elemP f g (z :: t) = none)
    (hzd : ∀ d, ¬ Digit 16 d z) :
    (∀ e ∈ es, (∀ c, e ≠ .raw c) → ∃ p, f e.num = some p) →
    ∃ parts, many0 (elemP f g) (s ++ z :: t) = some (parts, z :: t) ∧
      parts.flatMap w = es.flatMap fun e =>
        match e with
        | .raw c => w (g [c])
        | e => ((f e.num).map w).getD [] := by
  have hsh := shrinks_elemP f g
  induction h with
  | nil =>
    intro _
    exact ⟨[], many0_none hz, rfl⟩
  | @raw c s es h1 h2 h3 _ ih =>
    intro hf
    obtain ⟨parts, hm, hp⟩ := ih (fun e he => hf e (List.mem_cons_of_mem _ he))
    have hpc : plainC c = true := plainC_iff.2 ⟨h1, h2, h3⟩
    have hP : ∀ r tw dw, r.takeWhile plainC = tw → r.dropWhile plainC = dw →
        elemP f g (c :: r) = some (g (c :: tw), dw) := by
      intro r tw dw htw hdw
      rw [elemP, or_right (mapOpt_none' (escapedChar_none h1))]
      refine map_some ?_
      rw [strRun_eq]
      simp [takeWhile1, hpc, htw, hdw]
    cases hi : s ++ z :: t with
    | nil => simp at hi
    | cons x r =>
      rw [hi] at hm
      by_cases hx : plainC x = true
      · have hx' := plainC_iff.1 hx
        have hPx : elemP f g (x :: r) = some (g (x :: r.takeWhile plainC), r.dropWhile plainC) := by
          rw [elemP, or_right (mapOpt_none' (escapedChar_none hx'.1))]
          refine map_some ?_
          rw [strRun_eq]
          simp [takeWhile1, hx]
        have hlt : (r.dropWhile plainC).length ≤ r.length := by
          have := List.takeWhile_append_dropWhile (p := plainC) (l := r)
          have := congrArg List.length this
          rw [List.length_append] at this; omega
        rw [many0_eq hsh, hPx] at hm
        simp only [List.length_cons] at hm
        rw [if_neg (by omega)] at hm
        split at hm
        · rename_i q r' hq
          simp only [Option.some.injEq, Prod.mk.injEq] at hm
          obtain ⟨rfl, rfl⟩ := hm
          refine ⟨g (c :: x :: r.takeWhile plainC) :: q, ?_, ?_⟩
          · rw [List.cons_append, hi]
            refine many0_some hsh (hP _ _ _ ?_ ?_) ?_ hq
            · simp [List.takeWhile_cons, hx]
            · simp [List.dropWhile_cons, hx]
            · simp; omega
          · rw [List.flatMap_cons, List.flatMap_cons, ← hp, List.flatMap_cons]
            simp only
            rw [← List.append_assoc, ← hg]
            rfl
        · simp at hm
      · have hx : plainC x = false := by simpa using hx
        refine ⟨g [c] :: parts, ?_, ?_⟩
        · rw [List.cons_append, hi]
          refine many0_some hsh (hP _ [] (x :: r) ?_ ?_) ?_ hm
          · simp [List.takeWhile_cons, hx]
          · simp [List.dropWhile_cons, hx]
          · simp
        · rw [List.flatMap_cons, hp, List.flatMap_cons]
  | @esc t' e s es he ht _ ih =>
    intro hf
    have hraw : ∀ c, e ≠ .raw c := by intro c; cases he <;> simp
    obtain ⟨parts, hm, hp⟩ := ih (fun e he => hf e (List.mem_cons_of_mem _ he))
    obtain ⟨p, hfp⟩ := hf e List.mem_cons_self hraw
    have he' : Escape t' e (s ++ z :: t) := he.extend hzd t
    have hP : elemP f g (t' ++ (s ++ z :: t)) = some (p, s ++ z :: t) :=
      or_left (mapOpt_some (escapedChar_escape he' (hok _ ht)) hfp)
    refine ⟨p :: parts, ?_, ?_⟩
    · rw [List.append_assoc]
      refine many0_some hsh hP ?_ hm
      have := escape_ne_nil he
      rw [List.length_append (as := t')]
      omega
    · rw [List.flatMap_cons, hp, List.flatMap_cons]
      cases e with
      | raw c => exact absurd rfl (hraw c)
      | code n => simp [hfp]
      | ucn c => simp [hfp]

theorem elemP_quote (t : Str) : elemP f g ('"' :: t) = none := by
  rw [elemP, or_right (mapOpt_none' (escapedChar_none (c := '"') (by decide)))]
  exact map_none (takeWhile1_stop (by
    intro c r hc
    simp only [List.cons.injEq] at hc
    rw [← hc.1]; rfl))

theorem notDigit_quote : ∀ d, ¬ Digit 16 d '"' := by
  rintro d ⟨_, h⟩
  simp at h
  omega

/-- Reading the elements of a string up to the closing quote. -/
theorem many0_elems {ok : Str → Prop} (hok : ∀ t, ok t → TwoHex t)
    (hg : ∀ a b, w (g (a ++ b)) = w (g a) ++ w (g b)) {s : Str} {es : List Elem}
    (h : StrText ok s es) (t : Str) (m : Elem → List β)
    (hraw : ∀ c, w (g [c]) = m (.raw c))
    (hesc : ∀ e ∈ es, (∀ c, e ≠ .raw c) → ∃ p, f e.num = some p ∧ w p = m e) :
    ∃ parts, many0 (elemP f g) (s ++ '"' :: t) = some (parts, '"' :: t) ∧
      parts.flatMap w = es.flatMap m := by
  obtain ⟨parts, h1, h2⟩ := many0_elems_stop f g w hok hg h '"' t (elemP_quote f g t)
    notDigit_quote (fun e he hc => (hesc e he hc).imp fun _ h => h.1)
  refine ⟨parts, h1, h2.trans ?_⟩
  clear h1 h2 h
  induction es with
  | nil => rfl
  | cons e es ih =>
    rw [List.flatMap_cons, List.flatMap_cons, ih (fun e he => hesc e (List.mem_cons_of_mem _ he))]
    congr 1
    cases e with
    | raw c => exact hraw c
    | code n =>
      obtain ⟨p, h1, h2⟩ := hesc _ List.mem_cons_self (by simp)
      simp only [h1, Option.map_some, Option.getD_some, h2]
    | ucn n =>
      obtain ⟨p, h1, h2⟩ := hesc _ List.mem_cons_self (by simp)
      simp only [h1, Option.map_some, Option.getD_some, h2]

end

theorem quoted {α β : Type} {p : Parser Char α} {F : α → β} {s t : Str} {a : α}
    (h : p (s ++ '"' :: t) = some (a, '"' :: t)) :
    delimited dquote (map p F) dquote ('"' :: s ++ '"' :: t) = some (F a, t) := by
  have h1 : preceded dquote (map p F) ('"' :: (s ++ '"' :: t)) = some (F a, '"' :: t) :=
    preceded_some (a := ()) (r := s ++ '"' :: t) (by simp [dquote, tag]) (map_some h)
  exact map_some (seq_some (a := F a) (r := '"' :: t) (b := ()) h1 (by simp [dquote, tag]))

/-! ## The five kinds of string -/

/-- Elements an ordinary string literal reads as C does: codes are bytes, and universal
character names avoid U+0080 to U+00FF. -/
def OrdOk : Elem → Prop
  | .raw _ => True
  | .code n => n < 256
  | .ucn c => c.toNat < 0x80 ∨ 0x100 ≤ c.toNat

theorem parseOrdinary_text {s : Str} {es : List Elem} (h : StrText TwoHex s es)
    (hes : ∀ e ∈ es, OrdOk e) (t : Str) :
    parseOrdinary ('"' :: s ++ '"' :: t) = some (es.flatMap Elem.bytes, t) := by
  obtain ⟨parts, h1, h2⟩ := many0_elems ordinaryEscape utf8EncStr id (fun _ h => h)
    (by intro a b; simp [utf8EncStr]) h t Elem.bytes
    (by intro c; simp [utf8EncStr, Elem.bytes, utf8Enc_eq])
    (by
      intro e he hc
      have ho := hes e he
      cases e with
      | raw c => exact absurd rfl (hc c)
      | code n => exact ⟨_, if_pos ho, rfl⟩
      | ucn c' =>
        rcases ho with ho | ho
        · refine ⟨_, if_pos (by simp only [Elem.num]; omega), ?_⟩
          simp only [id, Elem.num, Elem.bytes, ← utf8Enc_eq, utf8Enc, if_pos ho]
        · refine ⟨utf8Enc c', ?_, by simp [Elem.bytes, utf8Enc_eq]⟩
          simp only [ordinaryEscape, Elem.num, charOfNat_toNat]
          rw [if_neg (by omega)]; rfl)
  rw [← h2, List.flatMap_id]
  exact quoted h1

/-- Elements that stand for a character: codes are scalar values. -/
def ChrOk : Elem → Prop
  | .code n => n.isValidChar
  | _ => True

theorem chrOk_num {e : Elem} (h : ChrOk e) : e.num = e.chr.toNat := by
  cases e with
  | raw c => rfl
  | code n =>
    simp only [Elem.num, Elem.chr]
    have h : n.isValidChar := h
    simp [Char.ofNat, h, Char.toNat, Char.ofNatAux]
  | ucn c => rfl

theorem bytes_chr {es : List Elem} (h : ∀ e ∈ es, e.IsChar) :
    es.flatMap Elem.bytes = utf8EncStr (es.map Elem.chr) := by
  induction es with
  | nil => rfl
  | cons e es ih =>
    have hcons : utf8EncStr ((e :: es).map Elem.chr) = utf8Enc e.chr ++ utf8EncStr (es.map Elem.chr) := by
      simp [utf8EncStr]
    rw [List.flatMap_cons, hcons, ih (fun e he => h e (List.mem_cons_of_mem _ he))]
    congr 1
    cases e with
    | raw c => rw [utf8Enc_eq]; rfl
    | code n =>
      have hn : n < 128 := h _ List.mem_cons_self
      have := chrOk_num (e := .code n) (show n.isValidChar from .inl (by omega))
      simp only [Elem.num] at this
      simp only [Elem.bytes, utf8Enc, ← this, if_pos hn]
    | ucn c => rw [utf8Enc_eq]; rfl

theorem parseUtf8_text {s : Str} {es : List Elem} (h : StrText TwoHex s es)
    (hes : ∀ e ∈ es, OrdOk e) (hch : ∀ e ∈ es, e.IsChar) (t : Str) :
    parseUtf8 ('"' :: s ++ '"' :: t) = some (es.map Elem.chr, t) :=
  mapOpt_some (parseOrdinary_text h hes t) (by rw [bytes_chr hch, utf8Dec_encStr])

theorem Part16.append_toVec (p q : Part16) : (p.append q).toVec = p.toVec ++ q.toVec := by
  unfold Part16.append
  split <;> simp [Part16.toVec]

theorem Part16.foldl_toVec (ps : List Part16) : ∀ p : Part16,
    (ps.foldl Part16.append p).toVec = p.toVec ++ ps.flatMap Part16.toVec := by
  induction ps with
  | nil => intro p; simp
  | cons q ps ih => intro p; simp [ih, Part16.append_toVec]

theorem Part16.finish_eq (p : Part16) : p.finish = utf16Dec p.toVec := by
  cases p with
  | vec us => rfl
  | str s => simp only [Part16.finish, Part16.toVec, utf16Dec_encStr]

theorem parseUtf16_text {s : Str} {es : List Elem} (h : StrText TwoHex s es)
    (hes : ∀ e ∈ es, ChrOk e) (t : Str) :
    parseUtf16 ('"' :: s ++ '"' :: t) = some (es.map Elem.chr, t) := by
  obtain ⟨parts, h1, h2⟩ := many0_elems utf16Escape Part16.str Part16.toVec (fun _ h => h)
    (by intro a b; simp [Part16.toVec]) h t (fun e => utf16Enc e.chr)
    (by intro c; simp [Part16.toVec, Elem.chr])
    (by
      intro e he _
      rw [chrOk_num (hes e he)]
      by_cases hlt : e.chr.toNat < 65536
      · refine ⟨.vec [e.chr.toNat], if_pos hlt, ?_⟩
        simp only [Part16.toVec, utf16Enc]
        rw [if_pos hlt]
      · refine ⟨.vec (utf16Enc e.chr), ?_, rfl⟩
        simp only [utf16Escape, charOfNat_toNat]
        rw [if_neg hlt]; rfl)
  refine mapOpt_some (quoted h1) ?_
  rw [Part16.finish_eq, Part16.foldl_toVec, h2]
  have : es.flatMap (fun e => utf16Enc e.chr) = (es.map Elem.chr).flatMap utf16Enc := by
    rw [List.flatMap_map]
  rw [this, show (Part16.str []).toVec = [] from rfl, List.nil_append, utf16Dec_encStr]

theorem map_id_parser {σ α : Type} (p : Parser σ α) : map p id = p := by
  funext i
  unfold Parser.map
  split
  · rename_i h; rw [h]; rfl
  · rename_i h; rw [h]

theorem parseUtf32_text {s : Str} {es : List Elem} (h : StrText TwoHex s es)
    (hes : ∀ e ∈ es, ChrOk e) (t : Str) :
    parseUtf32 ('"' :: s ++ '"' :: t) = some (es.map Elem.chr, t) := by
  obtain ⟨parts, h1, h2⟩ := many0_elems (fun c => (charOfNat c).map ([·])) id id (fun _ h => h)
    (by intro a b; simp) h t (fun e => [e.chr]) (by intro c; rfl)
    (by
      intro e he _
      rw [chrOk_num (hes e he), charOfNat_toNat]
      exact ⟨_, rfl, rfl⟩)
  have : es.map Elem.chr = parts.flatten := by
    rw [← List.flatMap_id, h2]
    clear h1 h2 h hes
    induction es with
    | nil => rfl
    | cons e es ih => rw [List.flatMap_cons, ← ih]; rfl
  rw [this]
  unfold elemP at h1
  rw [map_id_parser] at h1
  exact quoted h1

theorem parseWide_text {s : Str} {es : List Elem} (h : StrText TwoHex s es) (t : Str) :
    parseWide ('"' :: s ++ '"' :: t) = some (es.map Elem.num, t) := by
  let P : Parser Char Nat := or escapedChar (map (satisfy plainC) Char.toNat)
  have hsh : Shrinks P := shrinks_escapedChar.or ((Shrinks.satisfy _).map _)
  have key : many0 P (s ++ '"' :: t) = some (es.map Elem.num, '"' :: t) := by
    induction h with
    | nil =>
      refine many0_none ?_
      show or _ _ ('"' :: t) = none
      rw [or_right (escapedChar_none (by decide))]
      exact map_none (by simp [satisfy, plainC])
    | @raw c s es h1 h2 h3 _ ih =>
      refine many0_some hsh (a := c.toNat) (r := s ++ '"' :: t) ?_ (by simp) ih
      show or _ _ (c :: (s ++ '"' :: t)) = _
      rw [or_right (escapedChar_none h1)]
      exact map_some (by simp only [satisfy, plainC_iff.2 ⟨h1, h2, h3⟩, if_true])
    | @esc t' e s es he ht _ ih =>
      have hP : P (t' ++ (s ++ '"' :: t)) = some (e.num, s ++ '"' :: t) :=
        or_left (escapedChar_escape (he.extend notDigit_quote t) ht)
      rw [List.append_assoc]
      refine many0_some hsh hP ?_ ih
      have := escape_ne_nil he
      rw [List.length_append (as := t')]
      omega
  have := quoted (F := id) key
  rw [map_id_parser] at this
  exact this

end CMacro
