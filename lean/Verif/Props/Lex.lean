import Verif.Proofs.Ident
import Verif.Proofs.Terminate

/-!
# Properties C23, C46, C49: identifiers and punctuators
-/

namespace CMacro
open Spec (IsIdent Spells Digits positional)

/-! ## C23 -/

/-- **C23**: a token without backslashes is an identifier exactly when it starts with a start
character or `_` and goes on with continuation characters; its text is the token itself. -/
theorem C23_identifiers_exact (E : Env) (s id : Str) (hb : '\\' ∉ s) :
    identTryFrom E s = some id ↔ id = s ∧ IsIdent E.xidStart E.xidContinue s :=
  identTryFrom_noEscape E hb id

example : identTryFrom asciiEnv c!"_a9" = some c!"_a9" :=
  (C23_identifiers_exact asciiEnv _ _ (by decide)).2 ⟨rfl, by simp only [IsIdent]; decide⟩
example : identTryFrom asciiEnv c!"9a" = none := by
  cases h : identTryFrom asciiEnv c!"9a" with
  | none => rfl
  | some id =>
    have := ((C23_identifiers_exact asciiEnv _ _ (by decide)).1 h).2
    simp only [IsIdent] at this
    exact absurd this.1 (by decide)

/-! ## C49 -/

/-- **C49**, the full statement: an identifier may be written with universal character names;
the token is an identifier exactly when the characters it denotes form one, and it is then
that identifier. -/
def C49_statement : Prop :=
  ∀ (E : Env), E.Lawful → ∀ s t id : Str, Spells s t →
    (identTryFrom E s = some id ↔ id = t ∧ IsIdent E.xidStart E.xidContinue t)

/-- ASCII plus the letter `Ё` (U+0401). -/
def cyrillicEnv : Env where
  xidStart c := c.isAlpha || c.toNat == 0x401
  xidContinue c := c.isAlphanum || c == '_' || c.toNat == 0x401
  debugFmt := asciiEnv.debugFmt

theorem cyrillicEnv_lawful : cyrillicEnv.Lawful where
  startAscii := by
    intro c hc
    have : (c.toNat == 0x401) = false := by simp only [beq_eq_false_iff_ne]; omega
    simp only [cyrillicEnv, this, Bool.or_false]
  contAscii := by
    intro c hc
    have : (c.toNat == 0x401) = false := by simp only [beq_eq_false_iff_ne]; omega
    simp only [cyrillicEnv, this, Bool.or_false]
  startCont := by
    intro c h
    simp only [cyrillicEnv, Bool.or_eq_true] at h ⊢
    rcases h with h | h
    · exact .inl (.inl (asciiEnv_lawful.startCont c h |> fun h => by
        simp only [asciiEnv, Bool.or_eq_true] at h
        rcases h with h | h
        · exact h
        · simp only [beq_iff_eq] at h; subst h; contradiction))
    · exact .inr h

theorem digits_0401 : Digits 16 [0, 4, 0, 1] c!"0401" :=
  .cons ⟨by decide, .inl (by decide)⟩ <| .cons ⟨by decide, .inl (by decide)⟩ <|
    .cons ⟨by decide, .inl (by decide)⟩ <| .cons ⟨by decide, .inl (by decide)⟩ .nil

theorem spells_0401 : Spells c!"\\u0401" ['Ё'] :=
  Spells.ucn4 (ds := [0, 4, 0, 1]) (hs := c!"0401") (s := []) (t := []) (c := 'Ё')
    digits_0401 rfl (by decide) .nil

/-- **C49** is false of the code: the token `a\u0401` denotes the identifier `aЁ`, but is not accepted. -/
theorem C49_false : ¬ C49_statement := by
  intro hs
  have h := (hs cyrillicEnv cyrillicEnv_lawful c!"a\\u0401" ['a', 'Ё'] ['a', 'Ё']
    (.char (by decide) spells_0401)).2 ⟨rfl, by simp only [IsIdent]; decide⟩
  rw [show identTryFrom cyrillicEnv c!"a\\u0401" = none from by decide +kernel] at h
  simp at h

/-- **C49**, what holds: it is true of tokens that start with a universal character name, and of
tokens that contain none.  Missing: a plain character first and a universal character name
later. -/
theorem C49_universal_names_partial (E : Env) (L : E.Lawful) (s t id : Str) (h : Spells s t)
    (hs : '\\' ∉ s ∨ s.head? = some '\\') :
    identTryFrom E s = some id ↔ id = t ∧ IsIdent E.xidStart E.xidContinue t := by
  rcases hs with hs | hs
  · have : ∀ {s t}, Spells s t → '\\' ∉ s → t = s := by
      intro s t h
      induction h with
      | nil => intro _; rfl
      | char _ _ ih => intro hn; rw [ih (fun hc => hn (List.mem_cons_of_mem _ hc))]
      | ucn4 => intro hn; simp at hn
      | ucn8 => intro hn; simp at hn
    rw [this h hs]
    exact identTryFrom_noEscape E hs id
  · cases s with
    | nil => simp at hs
    | cons c s =>
      simp only [List.head?_cons, Option.some.injEq] at hs
      subst hs
      exact identTryFrom_escaped L h id

/-- `Ёb` is the identifier `Ёb`. -/
example : identTryFrom cyrillicEnv c!"\\u0401b" = some ['Ё', 'b'] :=
  (C49_universal_names_partial cyrillicEnv cyrillicEnv_lawful c!"\\u0401b" ['Ё', 'b'] _
    (Spells.ucn4 (ds := [0, 4, 0, 1]) (hs := c!"0401") (s := ['b']) (t := ['b']) (c := 'Ё')
      digits_0401 rfl (by decide) (.char (by decide) .nil)) (.inr rfl)).2
    ⟨rfl, by simp only [IsIdent]; decide⟩

/-! ## C46 -/

/-- The punctuators of C11 6.4.6. -/
def Spec.punctuators : List Str :=
  [c!"[", c!"]", c!"(", c!")", c!"{", c!"}", c!".", c!"->",
   c!"++", c!"--", c!"&", c!"*", c!"+", c!"-", c!"~", c!"!",
   c!"/", c!"%", c!"<<", c!">>", c!"<", c!">", c!"<=", c!">=", c!"==", c!"!=",
   c!"^", c!"|", c!"&&", c!"||",
   c!"?", c!":", c!";", c!"...",
   c!"=", c!"*=", c!"/=", c!"%=", c!"+=", c!"-=", c!"<<=", c!">>=", c!"&=", c!"^=", c!"|=",
   c!",", c!"#", c!"##",
   c!"<:", c!":>", c!"<%", c!"%>", c!"%:", c!"%:%:"]

/-- **C46**: a spelling is read as a punctuator exactly when it is one of C's (line
continuations in front aside). -/
theorem C46_punctuators (s p : Str) (h1 : ¬ c!"\\\n" <+: s) (h2 : ¬ c!"\\\r\n" <+: s) :
    punctTryFrom s = some p ↔ p = s ∧ s ∈ Spec.punctuators := by
  have hsame : ∀ s, s ∈ punctTable ↔ s ∈ Spec.punctuators := fun s => Iff.rfl
  constructor
  · intro h
    have := punctTryFrom_plain h h1 h2
    subst this
    refine ⟨rfl, (hsame p).1 ?_⟩
    unfold punctTryFrom at h
    split at h
    · exact absurd (by simp) h1
    · exact absurd (by simp) h2
    · split at h
      · assumption
      · simp at h
  · rintro ⟨rfl, h⟩
    unfold punctTryFrom
    split
    · exact absurd (by simp) h1
    · exact absurd (by simp) h2
    · rw [if_pos ((hsame p).2 h)]

/-- **C46**: pasting two punctuators succeeds exactly when the joined spelling is a punctuator,
and gives that punctuator. -/
theorem C46_paste (a b p : Str) (ha : a ∈ Spec.punctuators) (hb : b ∈ Spec.punctuators) :
    punctConcat a b = some p ↔ p = a ++ b ∧ a ++ b ∈ Spec.punctuators := by
  have key : ∀ a ∈ Spec.punctuators, ∀ b ∈ Spec.punctuators,
      punctConcat a b = if a ++ b ∈ Spec.punctuators then some (a ++ b) else none := by
    decide +kernel
  rw [key a ha b hb]
  split
  · rename_i h
    simp only [Option.some.injEq]
    exact ⟨fun h' => ⟨h'.symm, h⟩, fun h' => h'.1.symm⟩
  · rename_i h
    simp [h]

example : punctConcat c!"<<" c!"=" = some c!"<<=" :=
  (C46_paste _ _ _ (by decide) (by decide)).2 (by decide)

end CMacro
