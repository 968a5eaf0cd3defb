import Verif.Proofs.Keeps

/-! # Continuations such as `12ab` are cut into pieces without loss -/

namespace CMacro
open Parser

theorem ofDigitChars_snoc (ds : Str) (c : Char) : Nat.ofDigitChars 10 (ds ++ [c]) 0 = 10 * Nat.ofDigitChars 10 ds 0 + (c.toNat - '0'.toNat) := by
  rw [Nat.ofDigitChars_append, Nat.ofDigitChars_cons, Nat.ofDigitChars_nil]

theorem digit_bounds {c : Char} (h : c.isDigit = true) : 48 ≤ c.toNat ∧ c.toNat ≤ 57 := by
  simp only [Char.isDigit, Bool.and_eq_true, decide_eq_true_eq, ge_iff_le, UInt32.le_iff_toNat_le] at h
  exact h

theorem digitChar_sub {c : Char} (h : c.isDigit = true) : Nat.digitChar (c.toNat - '0'.toNat) = c := by
  obtain ⟨h1, h2⟩ := digit_bounds h
  have e : c = Char.ofNat c.toNat := (Char.ofNat_toNat c).symm
  generalize c.toNat = n at *
  subst e
  have : n = 48 ∨ n = 49 ∨ n = 50 ∨ n = 51 ∨ n = 52 ∨ n = 53 ∨ n = 54 ∨ n = 55 ∨ n = 56 ∨ n = 57 := by omega
  rcases this with rfl | rfl | rfl | rfl | rfl | rfl | rfl | rfl | rfl | rfl <;> decide

/-- Digits without a leading zero are what the number is written as. -/
theorem toDigits_ofDigitChars : ∀ (k : Nat) (ds : Str), ds.length = k + 1 → (∀ c ∈ ds, c.isDigit = true) → ds.head? ≠ some '0' →
    0 < Nat.ofDigitChars 10 ds 0 ∧ Nat.ofDigitChars 10 ds 0 < 10 ^ (k + 1) ∧ Nat.toDigits 10 (Nat.ofDigitChars 10 ds 0) = ds
  | 0, ds, hl, hd, h0 => by
    obtain ⟨c, rfl⟩ : ∃ c, ds = [c] := by
      match ds, hl with
      | [c], _ => exact ⟨c, rfl⟩
    have hc := hd c (by simp)
    obtain ⟨h1, h2⟩ := digit_bounds hc
    have hv : Nat.ofDigitChars 10 [c] 0 = c.toNat - '0'.toNat := by rw [Nat.ofDigitChars_cons, Nat.ofDigitChars_nil]; omega
    have z : '0'.toNat = 48 := rfl
    have hne : c.toNat ≠ 48 := by
      intro e
      apply h0
      simp only [List.head?_cons, Option.some.injEq]
      rw [← Char.ofNat_toNat c, e]
    rw [hv]
    refine ⟨by omega, by omega, ?_⟩
    rw [Nat.toDigits_of_lt_base (by omega), digitChar_sub hc]
  | k + 1, ds, hl, hd, h0 => by
    rcases List.eq_nil_or_concat ds with rfl | ⟨es, c, rfl⟩
    · simp at hl
    · rw [List.concat_eq_append] at *
      simp only [List.length_append, List.length_cons, List.length_nil] at hl
      have hne : es ≠ [] := by rintro rfl; simp at hl
      obtain ⟨i1, i2, i3⟩ := toDigits_ofDigitChars k es (by omega) (fun x hx => hd x (by simp [hx])) (by
        cases es with
        | nil => exact absurd rfl hne
        | cons a b => simpa using h0)
      have hc := hd c (by simp)
      obtain ⟨h1, h2⟩ := digit_bounds hc
      have z : '0'.toNat = 48 := rfl
      rw [ofDigitChars_snoc]
      have hp : (10 : Nat) ^ (k + 1 + 1) = 10 * 10 ^ (k + 1) := by rw [Nat.pow_succ]; omega
      refine ⟨by omega, by omega, ?_⟩
      rw [Nat.toDigits_of_base_le (by omega) (by omega)]
      rw [show (10 * Nat.ofDigitChars 10 es 0 + (c.toNat - '0'.toNat)) / 10 = Nat.ofDigitChars 10 es 0 by omega,
        show (10 * Nat.ofDigitChars 10 es 0 + (c.toNat - '0'.toNat)) % 10 = c.toNat - '0'.toNat by omega, i3, digitChar_sub hc]

/-- A letter, digit or underscore of ASCII. -/
def wordChar (c : Char) : Bool := c.isAlphanum || c == '_'

theorem wordChar_ascii {c : Char} (h : wordChar c = true) : c.toNat < 128 := by
  simp only [wordChar, Char.isAlphanum, Char.isAlpha, Char.isUpper, Char.isLower, Char.isDigit, Bool.or_eq_true, Bool.and_eq_true,
    decide_eq_true_eq, ge_iff_le, UInt32.le_iff_toNat_le, beq_iff_eq] at h
  rcases h with ((⟨_, h⟩ | ⟨_, h⟩) | ⟨_, h⟩) | rfl
  · exact Nat.lt_of_le_of_lt h (by decide)
  · exact Nat.lt_of_le_of_lt h (by decide)
  · exact Nat.lt_of_le_of_lt h (by decide)
  · decide

/-- One round of the loop of `splitCont`. -/
abbrev contItem (E : Env) : Parser Char IdentCont := Parser.or unsuffixedInt (Parser.map (identParseStr E) .plain)

theorem contItem_step {E : Env} (hE : E.Lawful) {c : Char} {cs : Str} (hw : ∀ x ∈ c :: cs, wordChar x = true) (hl : (c :: cs).length ≤ 19) :
    ∃ id piece rest, contItem E (c :: cs) = some (id, rest) ∧ c :: cs = piece ++ rest ∧ piece ≠ [] ∧ Spec.contLeaf id = .name piece := by
  by_cases h0 : c = '0'
  · subst h0
    exact ⟨.int ⟨0, none⟩, ['0'], cs, by simp [contItem, unsuffixedInt, Parser.or, Parser.map, tag], rfl, by simp, by
      simp [Spec.contLeaf]⟩
  · have ht : tag c!"0" (c :: cs) = none := by simp [tag, Ne.symm h0]
    by_cases hd : c.isDigit = true
    · obtain ⟨ds, rest, e, hds, hne, hrest⟩ : ∃ ds rest, cs = ds ++ rest ∧ (∀ x ∈ c :: ds, x.isDigit = true) ∧ c :: ds ≠ [] ∧
          NoStart (isDigit 10) rest := by
        refine ⟨cs.takeWhile (isDigit 10), cs.dropWhile (isDigit 10), (List.takeWhile_append_dropWhile).symm, ?_, by simp, ?_⟩
        · intro x hx
          rcases List.mem_cons.1 hx with rfl | hx
          · exact hd
          · rw [← isDigit10_eq]
            exact (List.all_eq_true.1 List.all_takeWhile) x hx
        · intro x r hx
          have := List.head?_dropWhile_not (isDigit 10) cs
          rw [hx] at this
          simpa using this
      have hrun : takeWhile1 (isDigit 10) (c :: cs) = some (c :: ds, rest) := by
        rw [e]
        exact takeWhile1_run (s := c :: ds) (fun x hx => by rw [isDigit10_eq]; exact hds x hx) hne hrest
      obtain ⟨-, v2, v3⟩ := toDigits_ofDigitChars ds.length (c :: ds) (by simp) hds (by simpa using h0)
      have hlen : ds.length + 1 ≤ 19 := by
        have : (c :: cs).length = ds.length + rest.length + 1 := by rw [e]; simp
        omega
      have hv : Nat.ofDigitChars 10 (c :: ds) 0 < 2 ^ 64 :=
        Nat.lt_of_lt_of_le v2 (Nat.le_trans (Nat.pow_le_pow_right (by decide) hlen) (by decide))
      have hu : u64P (c :: cs) = some (Nat.ofDigitChars 10 (c :: ds) 0, rest) := by
        have := parseUnsigned_digits hds hv
        unfold parseUnsigned at this
        unfold u64P
        rw [mapOpt_some hrun]
        exact this
      refine ⟨.int ⟨BitVec.ofNat 128 (Nat.ofDigitChars 10 (c :: ds) 0), none⟩, c :: ds, rest, ?_, by simp [e], by simp, ?_⟩
      · unfold contItem unsuffixedInt
        exact or_left (map_some (by rw [or_right (map_none ht)]; exact hu))
      · simp only [Spec.contLeaf, BitVec.toNat_ofNat]
        rw [Nat.mod_eq_of_lt (Nat.lt_trans hv (by decide)), v3]
    · have hu : unsuffixedInt (c :: cs) = none := by
        unfold unsuffixedInt
        refine map_none ?_
        rw [or_right (map_none ht)]
        exact mapOpt_none' (takeWhile1_stop fun x r hx => by
          cases hx
          rw [isDigit10_eq]
          simpa using hd)
      have hc := hw c (by simp)
      have hs : isIdentStart E c = true := by
        unfold isIdentStart
        rw [hE.startAscii c (wordChar_ascii hc)]
        simp only [wordChar, Char.isAlphanum, Bool.or_eq_true] at hc ⊢
        rcases hc with (h | h) | h
        · exact .inl h
        · exact absurd h hd
        · exact .inr h
      have hall : ∀ x ∈ cs, E.xidContinue x = true := fun x hx => by
        have := hw x (by simp [hx])
        rw [hE.contAscii x (wordChar_ascii this)]
        exact this
      refine ⟨.plain (c :: cs), c :: cs, [], ?_, by simp, by simp, rfl⟩
      unfold contItem
      rw [or_right hu]
      refine map_some (or_left ?_)
      simp [identPlain, hs, takeWhile_eq_of_all hall, takeWhile_all.2 hall]

theorem many0F_cont {E : Env} (hE : E.Lawful) : ∀ (n : Nat) (s r : Str) (ids : List IdentCont), (∀ x ∈ s, wordChar x = true) →
    s.length ≤ 19 → many0F (contItem E) n s = some (ids, r) → ∃ pieces : List Str, pieces.flatten = s ∧
      ids.map Spec.contLeaf = pieces.map .name
  | 0, _, _, _, _, _, h => by cases h
  | n + 1, [], r, ids, _, _, h => by
    have : contItem E [] = none := by
      simp [contItem, unsuffixedInt, u64P, Parser.or, Parser.map, Parser.mapOpt, tag, takeWhile1, identParseStr, identPlain, identEscaped,
        Parser.seq, identChar, preceded, satisfy]
    rw [many0F, this] at h
    cases h
    exact ⟨[], rfl, rfl⟩
  | n + 1, c :: cs, r, ids, hw, hl, h => by
    obtain ⟨id, piece, rest, h1, e, hne, hleaf⟩ := contItem_step hE hw hl
    rw [many0F, h1] at h
    simp only at h
    split at h
    · cases h
    · split at h
      · rename_i as r' hm
        cases h
        obtain ⟨pieces, hp, hq⟩ := many0F_cont hE n rest r as (fun x hx => hw x (by rw [e]; simp [hx]))
          (by rw [e] at hl; simp at hl; omega) hm
        exact ⟨piece :: pieces, by rw [List.flatten_cons, hp, e], by simp [hleaf, hq]⟩
      · cases h

theorem splits_word {E : Env} (hE : E.Lawful) {s : Str} (hw : ∀ x ∈ s, wordChar x = true) (hl : s.length ≤ 19) : Splits E s := by
  intro ids h
  unfold splitCont many1 at h
  split at h
  · cases h
  · rename_i x hx
    rcases hm : many0 (contItem E) s with _ | ⟨as, r⟩
    · rw [hm] at h; cases h
    · rw [hm] at h
      cases h
      exact many0F_cont hE _ s r as hw hl hm

end CMacro
