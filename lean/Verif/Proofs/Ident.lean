import Verif.Proofs.Parser
import Verif.Proofs.Lex
import Verif.Spec.Lex

/-! # Digits and identifiers -/

namespace CMacro
open Parser Spec

/-! ## Digits -/

theorem toDigit_eq_some {base d : Nat} {c : Char} : toDigit base c = some d ↔ Digit base d c := by
  have h0 : '0' ≤ c ↔ 48 ≤ c.toNat := by rw [Char.le_def, UInt32.le_iff_toNat_le]; rfl
  have h9 : c ≤ '9' ↔ c.toNat ≤ 57 := by rw [Char.le_def, UInt32.le_iff_toNat_le]; rfl
  have ha : 'a' ≤ c ↔ 97 ≤ c.toNat := by rw [Char.le_def, UInt32.le_iff_toNat_le]; rfl
  have hf : c ≤ 'f' ↔ c.toNat ≤ 102 := by rw [Char.le_def, UInt32.le_iff_toNat_le]; rfl
  have hA : 'A' ≤ c ↔ 65 ≤ c.toNat := by rw [Char.le_def, UInt32.le_iff_toNat_le]; rfl
  have hF : c ≤ 'F' ↔ c.toNat ≤ 70 := by rw [Char.le_def, UInt32.le_iff_toNat_le]; rfl
  unfold toDigit Digit
  simp only [h0, h9, ha, hf, hA, hF]
  by_cases c1 : 48 ≤ c.toNat ∧ c.toNat ≤ 57
  · rw [if_pos c1]
    simp only
    split
    · simp only [Option.some.injEq]; omega
    · simp only [reduceCtorEq, false_iff]; omega
  · rw [if_neg c1]
    by_cases c2 : 97 ≤ c.toNat ∧ c.toNat ≤ 102
    · rw [if_pos c2]
      simp only
      split
      · simp only [Option.some.injEq]; omega
      · simp only [reduceCtorEq, false_iff]; omega
    · rw [if_neg c2]
      by_cases c3 : 65 ≤ c.toNat ∧ c.toNat ≤ 70
      · rw [if_pos c3]
        simp only
        split
        · simp only [Option.some.injEq]; omega
        · simp only [reduceCtorEq, false_iff]; omega
      · rw [if_neg c3]
        simp only [reduceCtorEq, false_iff]; omega

theorem isDigit_iff {base : Nat} {c : Char} : isDigit base c = true ↔ ∃ d, Digit base d c := by
  unfold isDigit
  rw [Option.isSome_iff_exists]
  simp only [toDigit_eq_some]

theorem Digits.length {base : Nat} {ds : List Nat} {s : Str} (h : Digits base ds s) :
    s.length = ds.length := by
  induction h with
  | nil => rfl
  | cons _ _ ih => simp [ih]

theorem Digits.mono {base base' : Nat} (hb : base ≤ base') {ds : List Nat} {s : Str}
    (h : Digits base ds s) : Digits base' ds s := by
  induction h with
  | nil => exact .nil
  | cons h _ ih => exact .cons ⟨by have := h.1; omega, h.2⟩ ih

theorem Digits.isDigit {base : Nat} {ds : List Nat} {s : Str} (h : Digits base ds s) :
    ∀ c ∈ s, isDigit base c = true := by
  induction h with
  | nil => intro c hc; simp at hc
  | cons h _ ih =>
    intro c hc
    rcases List.mem_cons.1 hc with rfl | hc
    · exact isDigit_iff.2 ⟨_, h⟩
    · exact ih c hc

theorem Digits.append {base : Nat} {ds es : List Nat} {s t : Str} (h : Digits base ds s)
    (h' : Digits base es t) : Digits base (ds ++ es) (s ++ t) := by
  induction h with
  | nil => exact h'
  | cons h _ ih => exact .cons h ih

theorem exists_digits {base : Nat} {s : Str} (h : ∀ c ∈ s, isDigit base c = true) :
    ∃ ds, Digits base ds s := by
  induction s with
  | nil => exact ⟨[], .nil⟩
  | cons c s ih =>
    obtain ⟨d, hd⟩ := isDigit_iff.1 (h c List.mem_cons_self)
    obtain ⟨ds, hds⟩ := ih (fun x hx => h x (List.mem_cons_of_mem _ hx))
    exact ⟨d :: ds, .cons hd hds⟩

theorem foldDigits_from (base : Nat) : ∀ (ds : List Nat) (v : Nat),
    ds.foldl (fun acc n => acc * base + n) v = v * base ^ ds.length + positional base ds := by
  intro ds
  induction ds with
  | nil => intro v; simp [positional]
  | cons d ds ih =>
    intro v
    simp only [List.foldl_cons, ih, positional, List.length_cons, Nat.pow_succ]
    rw [Nat.add_mul, Nat.mul_assoc, Nat.mul_comm base, Nat.add_assoc]

theorem foldDigits_eq (base : Nat) (ds : List Nat) : foldDigits base ds = positional base ds := by
  have := foldDigits_from base ds 0
  simpa [foldDigits] using this

theorem digitP_some {base d : Nat} {c : Char} {s : Str} (h : Digit base d c) :
    digitP base (c :: s) = some (d, s) := by
  simp [digitP, mapOpt, satisfy, toDigit_eq_some.2 h]

theorem manyMN_digits {base m : Nat} : ∀ {ds : List Nat} {hs : Str} (s : Str) (k : Nat),
    Digits base ds hs → m ≤ k + ds.length →
    manyMN m (digitP base) ds.length k (hs ++ s) = some (ds, s) := by
  intro ds
  induction ds with
  | nil => intro hs s k h hm; cases h; simp [manyMN]; simpa using hm
  | cons d ds ih =>
    intro hs s k h hm
    cases h with
    | cons hd hds =>
      simp only [List.length_cons, manyMN, List.cons_append, digitP_some hd]
      rw [ih s (k + 1) hds (by simp at hm; omega)]

theorem positional_lt (base : Nat) {ds : List Nat} {s : Str} (h : Digits base ds s) :
    positional base ds < base ^ ds.length := by
  induction h with
  | nil => simp [positional]
  | @cons d ds c s h _ ih =>
    simp only [positional, List.length_cons, Nat.pow_succ]
    have : d + 1 ≤ base := h.1
    have := Nat.mul_le_mul_right (base ^ ds.length) this
    rw [Nat.mul_comm base, Nat.add_mul] at this
    omega

/-! ## Universal character names -/

theorem universalChar4 {ds : List Nat} {hs s : Str} (h : Digits 16 ds hs) (hl : ds.length = 4) :
    universalChar ('u' :: hs ++ s) = some (positional 16 ds, s) := by
  have := manyMN_digits (m := 4) s 0 h (by omega)
  rw [hl] at this
  simp [universalChar, Parser.or, preceded, Parser.map, seq, tag, this, foldDigits_eq]

theorem universalChar8 {ds : List Nat} {hs s : Str} (h : Digits 16 ds hs) (hl : ds.length = 8) :
    universalChar ('U' :: hs ++ s) = some (positional 16 ds, s) := by
  have := manyMN_digits (m := 8) s 0 h (by omega)
  rw [hl] at this
  simp [universalChar, Parser.or, preceded, Parser.map, seq, tag, this, foldDigits_eq]

theorem charOfNat_toNat (c : Char) : charOfNat c.toNat = some c := by
  have hv : c.toNat.isValidChar := c.valid
  simp [charOfNat, hv, Char.ofNat_toNat]

theorem identChar_char {c : Char} (s : Str) (h : c ≠ '\\') : identChar (c :: s) = some (c, s) := by
  simp [identChar, Parser.or, mapOpt, preceded, Parser.map, seq, tag, satisfy, Ne.symm h]

theorem identChar_ucn4 {ds : List Nat} {hs s : Str} {c : Char} (h : Digits 16 ds hs)
    (hl : ds.length = 4) (hc : positional 16 ds = c.toNat) :
    identChar ('\\' :: 'u' :: hs ++ s) = some (c, s) := by
  have := universalChar4 (s := s) h hl
  simp only [List.cons_append] at this
  simp [identChar, Parser.or, mapOpt, preceded, Parser.map, seq, tag, this, hc, charOfNat_toNat]

theorem identChar_ucn8 {ds : List Nat} {hs s : Str} {c : Char} (h : Digits 16 ds hs)
    (hl : ds.length = 8) (hc : positional 16 ds = c.toNat) :
    identChar ('\\' :: 'U' :: hs ++ s) = some (c, s) := by
  have := universalChar8 (s := s) h hl
  simp only [List.cons_append] at this
  simp [identChar, Parser.or, mapOpt, preceded, Parser.map, seq, tag, this, hc, charOfNat_toNat]

theorem shrinks_digitP (base : Nat) : Shrinks (digitP base) := (Shrinks.satisfy _).mapOpt _

theorem shrinks_universalChar : Shrinks universalChar :=
  ((Shrinks.tag _).preceded ((Shrinks.manyMN _ (shrinks_digitP 16) _ _).map _)).or
    ((Shrinks.tag _).preceded ((Shrinks.manyMN _ (shrinks_digitP 16) _ _).map _))

theorem shrinks_identChar : Shrinks identChar :=
  (((Shrinks.tag _).preceded shrinks_universalChar).mapOpt _).or (Shrinks.satisfy _)

/-! ## Identifiers -/

theorem isIdent_iff {E : Env} {s : Str} :
    isIdentifier E s = true ↔ IsIdent E.xidStart E.xidContinue s := by
  cases s with
  | nil => simp [isIdentifier, IsIdent]
  | cons c cs => simp [isIdentifier, IsIdent, isIdentStart]

theorem takeWhile_all {α : Type} {p : α → Bool} {l : List α} :
    l.dropWhile p = [] ↔ ∀ x ∈ l, p x = true := by
  induction l with
  | nil => simp
  | cons a l ih =>
    by_cases ha : p a = true
    · simp [List.dropWhile_cons, ha, ih]
    · simp [List.dropWhile_cons, ha]

theorem takeWhile_eq_of_all {α : Type} {p : α → Bool} {l : List α} (h : ∀ x ∈ l, p x = true) :
    l.takeWhile p = l := by
  induction l with
  | nil => rfl
  | cons a l ih =>
    simp [List.takeWhile_cons, h a List.mem_cons_self,
      ih (fun x hx => h x (List.mem_cons_of_mem _ hx))]

theorem identTryFrom_noEscape (E : Env) {s : Str} (h : '\\' ∉ s) (id : Str) :
    identTryFrom E s = some id ↔ id = s ∧ IsIdent E.xidStart E.xidContinue s := by
  cases s with
  | nil =>
    simp [identTryFrom, allConsuming, identParseStr, Parser.or, identPlain, identEscaped, Parser.map,
      seq, mapOpt, identChar, preceded, tag, satisfy, IsIdent]
  | cons c cs =>
    have hc : c ≠ '\\' := by rintro rfl; simp at h
    by_cases hs : isIdentStart E c = true
    · have hs' : E.xidStart c = true ∨ c = '_' := by simpa [isIdentStart] using hs
      simp only [identTryFrom, allConsuming, identParseStr, Parser.or, identPlain, hs, if_true,
        IsIdent, hs', true_and]
      by_cases hd : cs.dropWhile E.xidContinue = []
      · rw [hd]
        have ha := takeWhile_all.1 hd
        simp only [Option.map_some, Option.some.injEq, takeWhile_eq_of_all ha]
        constructor
        · rintro rfl; exact ⟨rfl, ha⟩
        · rintro ⟨rfl, _⟩; rfl
      · constructor
        · intro h
          split at h
          · rename_i a he
            simp only [Option.some.injEq, Prod.mk.injEq] at he
            exact absurd he.2 hd
          · simp at h
        · rintro ⟨_, ha⟩
          exact absurd (takeWhile_all.2 ha) hd
    · have hs' : ¬ (E.xidStart c = true ∨ c = '_') := by simpa [isIdentStart] using hs
      simp [identTryFrom, allConsuming, identParseStr, Parser.or, identPlain, hs, identEscaped,
        Parser.map, seq, mapOpt, identChar_char cs hc, IsIdent, hs']

/-- The loop over the characters after the first one. -/
theorem many0_identChar (E : Env) {s t : Str} (h : Spells s t) :
    (∀ x ∈ t, E.xidContinue x = true) →
    many0 (mapOpt identChar fun c => if E.xidContinue c then some c else none) s = some (t, []) := by
  have hsh : Shrinks (mapOpt identChar fun c => if E.xidContinue c then some c else none) :=
    shrinks_identChar.mapOpt _
  induction h with
  | nil =>
    intro _
    exact many0_none (by simp [mapOpt, identChar, Parser.or, preceded, Parser.map, seq, tag, satisfy])
  | @char c s t hc _ ih =>
    intro ha
    refine many0_some hsh (r := s) (a := c) ?_ (by simp)
      (ih (fun x hx => ha x (List.mem_cons_of_mem _ hx)))
    simp [mapOpt, identChar_char s hc, ha c List.mem_cons_self]
  | @ucn4 ds hs s t c hd hl hc _ ih =>
    intro ha
    exact many0_some hsh (r := s) (a := c)
      (mapOpt_some (identChar_ucn4 hd hl hc) (if_pos (ha c List.mem_cons_self)))
      (by simp; omega) (ih (fun x hx => ha x (List.mem_cons_of_mem _ hx)))
  | @ucn8 ds hs s t c hd hl hc _ ih =>
    intro ha
    exact many0_some hsh (r := s) (a := c)
      (mapOpt_some (identChar_ucn8 hd hl hc) (if_pos (ha c List.mem_cons_self)))
      (by simp; omega) (ih (fun x hx => ha x (List.mem_cons_of_mem _ hx)))

/-- If a character is not a continuation character the loop stops before the end. -/
theorem many0_identChar_stop (E : Env) {s t : Str} (h : Spells s t) :
    (¬ ∀ x ∈ t, E.xidContinue x = true) →
    ∃ u c r, many0 (mapOpt identChar fun c => if E.xidContinue c then some c else none) s =
      some (u, c :: r) := by
  have hsh : Shrinks (mapOpt identChar fun c => if E.xidContinue c then some c else none) :=
    shrinks_identChar.mapOpt _
  have key : ∀ (c : Char) (t : Str), (¬ ∀ x ∈ c :: t, E.xidContinue x = true) →
      E.xidContinue c = true → ¬ ∀ x ∈ t, E.xidContinue x = true := by
    intro c t h hc ha
    apply h
    intro x hx
    rcases List.mem_cons.1 hx with rfl | hx
    · exact hc
    · exact ha x hx
  induction h with
  | nil => intro h; exact absurd (by simp) h
  | @char c s t hc _ ih =>
    intro ha
    by_cases hx : E.xidContinue c = true
    · obtain ⟨u, d, r, hu⟩ := ih (key c t ha hx)
      exact ⟨c :: u, d, r, many0_some hsh (r := s) (a := c)
        (by simp [mapOpt, identChar_char s hc, hx]) (by simp) hu⟩
    · exact ⟨[], c, s, many0_none (by simp [mapOpt, identChar_char s hc, hx])⟩
  | @ucn4 ds hs s t c hd hl hc _ ih =>
    intro ha
    by_cases hx : E.xidContinue c = true
    · obtain ⟨u, d, r, hu⟩ := ih (key c t ha hx)
      exact ⟨c :: u, d, r, many0_some hsh (r := s) (a := c)
        (mapOpt_some (identChar_ucn4 hd hl hc) (if_pos hx)) (by simp; omega) hu⟩
    · exact ⟨[], '\\', _, many0_none
        (mapOpt_none (identChar_ucn4 hd hl hc) (if_neg hx))⟩
  | @ucn8 ds hs s t c hd hl hc _ ih =>
    intro ha
    by_cases hx : E.xidContinue c = true
    · obtain ⟨u, d, r, hu⟩ := ih (key c t ha hx)
      exact ⟨c :: u, d, r, many0_some hsh (r := s) (a := c)
        (mapOpt_some (identChar_ucn8 hd hl hc) (if_pos hx)) (by simp; omega) hu⟩
    · exact ⟨[], '\\', _, many0_none
        (mapOpt_none (identChar_ucn8 hd hl hc) (if_neg hx))⟩

/-- Identifiers that start with a universal character name. -/
theorem identTryFrom_escaped {E : Env} (L : E.Lawful) {s t : Str} (h : Spells ('\\' :: s) t)
    (id : Str) : identTryFrom E ('\\' :: s) = some id ↔
      id = t ∧ IsIdent E.xidStart E.xidContinue t := by
  have hns : isIdentStart E '\\' = false := by
    simp only [isIdentStart, L.startAscii '\\' (by decide)]; decide
  have hplain : identPlain E ('\\' :: s) = none := by simp [identPlain, hns]
  obtain ⟨c, r, t', hic, rfl, hr⟩ : ∃ c r t', identChar ('\\' :: s) = some (c, r) ∧ t = c :: t' ∧
      Spells r t' := by
    generalize hq : '\\' :: s = q at h
    cases h with
    | nil => simp at hq
    | char hc _ => simp only [List.cons.injEq] at hq; exact absurd hq.1.symm hc
    | @ucn4 ds hs s' t' c hd hl hc ht => exact ⟨c, s', t', identChar_ucn4 hd hl hc, rfl, ht⟩
    | @ucn8 ds hs s' t' c hd hl hc ht => exact ⟨c, s', t', identChar_ucn8 hd hl hc, rfl, ht⟩
  simp only [identTryFrom, allConsuming, identParseStr, Parser.or, hplain, identEscaped, Parser.map,
    seq, IsIdent]
  by_cases hst : isIdentStart E c = true
  · have hst' : E.xidStart c = true ∨ c = '_' := by simpa [isIdentStart] using hst
    have h1 : mapOpt identChar (fun c => if isIdentStart E c then some c else none) ('\\' :: s) =
        some (c, r) := by simp [mapOpt, hic, hst]
    rw [h1]
    by_cases ha : ∀ x ∈ t', E.xidContinue x = true
    · simp only [many0_identChar E hr ha, Option.map_some, Option.some.injEq, hst', true_and]
      constructor
      · rintro rfl; exact ⟨rfl, ha⟩
      · rintro ⟨rfl, _⟩; rfl
    · obtain ⟨u, d, r', hu⟩ := many0_identChar_stop E hr ha
      simp [hu, ha]
  · have hst' : ¬ (E.xidStart c = true ∨ c = '_') := by simpa [isIdentStart] using hst
    have h1 : mapOpt identChar (fun c => if isIdentStart E c then some c else none) ('\\' :: s) =
        none := by simp [mapOpt, hic, hst]
    rw [h1]
    simp [hst']

theorem identContTryFrom_noEscape (E : Env) {s : Str} (h : '\\' ∉ s) (id : Str) :
    identContTryFrom E s = some id → id = s := by
  intro hh
  simp only [identContTryFrom, allConsuming, identContParseStr, Parser.or] at hh
  cases hr : takeWhile1 E.xidContinue s with
  | some x =>
    obtain ⟨a, r⟩ := x
    rw [hr] at hh
    unfold takeWhile1 at hr
    split at hr
    · simp at hr
    · simp only [Option.some.injEq, Prod.mk.injEq] at hr
      cases r with
      | nil =>
        simp only [Option.map_some, Option.some.injEq] at hh
        rw [← hh, ← hr.1]
        exact takeWhile_eq_of_all (takeWhile_all.1 hr.2)
      | cons c r => simp at hh
  | none =>
    rw [hr] at hh
    exfalso
    have hm : many0 (mapOpt identChar fun c => if E.xidContinue c then some c else none) s =
        some ([], s) := by
      apply many0_none
      cases s with
      | nil => simp [mapOpt, identChar, Parser.or, preceded, Parser.map, seq, tag, satisfy]
      | cons c cs =>
        have hc : c ≠ '\\' := by rintro rfl; simp at h
        have hx : E.xidContinue c = false := by
          cases hx : E.xidContinue c with
          | false => rfl
          | true => simp [takeWhile1, List.takeWhile_cons, hx] at hr
        simp [mapOpt, identChar_char cs hc, hx]
    simp [many1, hm] at hh

end CMacro
