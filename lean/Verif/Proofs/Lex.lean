import Verif.Model.MacroSet

/-! # Lemmas about the classification of single tokens -/

namespace CMacro
open Parser

theorem identParseStr_ne_nil {E : Env} {s id r : Str} (h : identParseStr E s = some (id, r)) :
    id ≠ [] := by
  unfold identParseStr Parser.or at h
  split at h
  · rename_i x hx
    simp only [Option.some.injEq] at h; subst h
    cases s with
    | nil => simp [identPlain] at hx
    | cons c cs =>
      simp only [identPlain] at hx
      split at hx
      · simp only [Option.some.injEq, Prod.mk.injEq] at hx; rw [← hx.1]; simp
      · simp at hx
  · unfold identEscaped Parser.map at h
    split at h
    · simp only [Option.some.injEq, Prod.mk.injEq] at h; rw [← h.1]; simp
    · simp at h

theorem identTryFrom_ne_nil {E : Env} {s id : Str} (h : identTryFrom E s = some id) : id ≠ [] := by
  unfold identTryFrom allConsuming at h
  split at h
  · rename_i a ha
    simp only [Option.map_some, Option.some.injEq] at h
    subst h
    exact identParseStr_ne_nil ha
  · simp at h

theorem fromStr_ident {E : Env} {s id : Str} :
    Token.fromStr E s = .ident id ↔ s ≠ c!"__VA_ARGS__" ∧ identTryFrom E s = some id := by
  unfold Token.fromStr
  by_cases hs : s = c!"__VA_ARGS__"
  · rw [if_pos hs]; simp [hs]
  · rw [if_neg hs]
    constructor
    · intro h
      refine ⟨hs, ?_⟩
      split at h
      · rename_i id' hid
        simp only [Token.ident.injEq] at h
        rw [hid, h]
      · repeat' split at h
        all_goals simp at h
    · intro h; rw [h.2]

theorem fromStr_varArgs {E : Env} {s : Str} :
    Token.fromStr E s = .varArgs ↔ s = c!"__VA_ARGS__" := by
  unfold Token.fromStr
  by_cases hs : s = c!"__VA_ARGS__"
  · rw [if_pos hs]; simp [hs]
  · rw [if_neg hs]
    constructor
    · intro h
      repeat' split at h
      all_goals simp at h
    · exact fun h => absurd h hs

theorem fromStr_isArg {E : Env} {s : Str} :
    (Token.fromStr E s).isArg = true ↔ s = c!"__VA_ARGS__" := by
  rw [← fromStr_varArgs (E := E)]
  unfold Token.fromStr
  repeat' split
  all_goals simp_all [Token.isArg]

theorem punctTryFrom_plain {s p : Str} (h : punctTryFrom s = some p)
    (h1 : ¬ c!"\\\n" <+: s) (h2 : ¬ c!"\\\r\n" <+: s) : p = s := by
  unfold punctTryFrom at h
  split at h
  · exact absurd (by simp) h1
  · exact absurd (by simp) h2
  · split at h
    · simpa using h.symm
    · simp at h

theorem fromStr_punct {E : Env} {s p : Str} (h : Token.fromStr E s = .punct p)
    (h1 : ¬ c!"\\\n" <+: s) (h2 : ¬ c!"\\\r\n" <+: s) : p = s := by
  unfold Token.fromStr at h
  split at h
  · simp at h
  · repeat' split at h
    all_goals first
      | (simp at h; done)
      | (simp only [Token.punct.injEq] at h; subst h; exact punctTryFrom_plain (by assumption) h1 h2)

/-- A one-character punctuator is read as that punctuator. -/
theorem fromStr_bracket {E : Env} (L : E.Lawful) {c : Char}
    (h : c = '(' ∨ c = ')' ∨ c = '[' ∨ c = ']' ∨ c = '{' ∨ c = '}' ∨ c = ',' ∨ c = '#') :
    Token.fromStr E [c] = .punct [c] := by
  have hs : E.xidStart c = false := by
    rw [L.startAscii c (by rcases h with h|h|h|h|h|h|h|h <;> subst h <;> decide)]
    rcases h with h|h|h|h|h|h|h|h <;> subst h <;> decide
  have hc : E.xidContinue c = false := by
    rw [L.contAscii c (by rcases h with h|h|h|h|h|h|h|h <;> subst h <;> decide)]
    rcases h with h|h|h|h|h|h|h|h <;> subst h <;> decide
  have hu : (c == '_') = false := by rcases h with h|h|h|h|h|h|h|h <;> subst h <;> decide
  have hb : '\\' ≠ c := by rcases h with h|h|h|h|h|h|h|h <;> subst h <;> decide
  have hid : identTryFrom E [c] = none := by
    simp [identTryFrom, allConsuming, identParseStr, Parser.or, identPlain, isIdentStart, hs, hu,
      identEscaped, Parser.map, seq, mapOpt, identChar, preceded, tag, hb, satisfy]
  have hic : identContTryFrom E [c] = none := by
    simp [identContTryFrom, allConsuming, identContParseStr, Parser.or, takeWhile1, hc, many1,
      many0, many0F, mapOpt, identChar, preceded, tag, hb, satisfy, Parser.map, seq]
  have hva : ([c] : Str) ≠ c!"__VA_ARGS__" := by simp
  have hl : Lit.tryFrom [c] = none := by
    rcases h with h|h|h|h|h|h|h|h <;> subst h <;> decide +kernel
  have hp : punctTryFrom [c] = some [c] := by
    rcases h with h|h|h|h|h|h|h|h <;> subst h <;> decide +kernel
  simp [Token.fromStr, hid, hic, hl, hp]

end CMacro
