import Verif.Model.Observe
import Verif.Proofs.Concat
import Verif.Proofs.Args
import Verif.Props.Lex
import Verif.Props.FloatLex
import Verif.Props.ReadInt

/-!
# Property C104: exactly which tokens are read, and as what
-/

namespace CMacro
open Parser
open Spec (IsIdent Spells Digits positional strToken chrToken CharRead Prefix)

variable {E : Env}

/-! ## Specification -/

/-- The text of a token denotes the characters `t`: it is `t`, or it starts with a universal
character name and denotes `t`. -/
def Spec.NameDenotes (s t : Str) : Prop := s = t ∨ (s.head? = some '\\' ∧ Spells s t)

/-- Character literals. -/
def Spec.CharToken (t : Str) (v : LitChar) : Prop :=
  ∃ p s n, t = chrToken p s ∧ CharRead s n ∧ n ≤ p.max ∧ v = p.lit n

/-- Floating constants. -/
def Spec.FloatToken (s : Str) (f : LitFloat) : Prop :=
  ∃ t u ty, s = t ++ u ∧ Spec.DecFloat t ∧ (u, ty) ∈ Spec.floatSuffixes ∧ f = ty.lit (.parse t)

/-- Integer constants. -/
def Spec.IntToken (t : Str) (i : LitInt) : Prop :=
  ∃ s u n ty, t = s ++ u ∧ Spec.IntRead s n ∧ (u, ty) ∈ Spec.intSuffixes ∧ n < 2 ^ 127 ∧
    i.value.toInt = n ∧ i.suffix = ty

/-- Line continuations: `\` and the end of a line, any number of times. -/
inductive Spec.Continued : Str → Prop
  | nil : Continued []
  | lf {s} : Continued s → Continued ('\\' :: '\n' :: s)
  | crlf {s} : Continued s → Continued ('\\' :: '\r' :: '\n' :: s)

/-- The tokens the library reads, and as what. -/
inductive Spec.TokenRead (E : Env) : Str → MacroToken → Prop
  | ident {s t} : NameDenotes s t → IsIdent E.xidStart E.xidContinue t → TokenRead E s (.ident t)
  | string {s v} : StringRead s v → TokenRead E s (.lit (.string v))
  | char {s v} : CharToken s v → TokenRead E s (.lit (.char v))
  | float {s v} : FloatToken s v → TokenRead E s (.lit (.float v))
  | int {s v} : IntToken s v → TokenRead E s (.lit (.int v))
  | cont {s t} : NameDenotes s t → t ≠ [] → (∀ c ∈ t, E.xidContinue c = true) →
      ¬ IsIdent E.xidStart E.xidContinue t → (∀ f, ¬ FloatToken s f) → (∀ i, ¬ IntToken s i) →
      TokenRead E s (.identCont t)
  | punct {k p} : Continued k → p ∈ punctuators → TokenRead E (k ++ p) (.punct p)
  | comment {t} : ¬ c!"*/" <:+: t → TokenRead E (c!"/*" ++ t ++ c!"*/") (.comment t)

/-! ## Names -/

theorem charOfNat_inv {n : Nat} {c : Char} (h : charOfNat n = some c) : n = c.toNat := by
  unfold charOfNat at h
  split at h
  · rename_i hv
    simp only [Option.some.injEq] at h
    rw [← h, Char.toNat, Char.ofNat, dif_pos hv]; rfl
  · simp at h

theorem identChar_read {s r : Str} {c : Char} (h : identChar s = some (c, r)) (hc : c ≠ '\\')
    {t : Str} (ht : Spells r t) : Spells s (c :: t) := by
  rcases or_inv h with h1 | ⟨-, h1⟩
  · obtain ⟨n, h2, h3⟩ := mapOpt_inv h1
    have h3 := charOfNat_inv h3
    obtain ⟨_, j, h0, h4⟩ := preceded_inv h2
    rw [tag_one h0]
    rcases or_inv h4 with h5 | ⟨-, h5⟩
    · obtain ⟨_, j', h6, h7⟩ := preceded_inv h5
      rw [tag_one h6]
      obtain ⟨ds, s, a1, rfl, a3, a4, -, rfl⟩ := digits_read h7
      have := Digits.length a1
      exact .ucn4 a1 (by omega) h3 ht
    · obtain ⟨_, j', h6, h7⟩ := preceded_inv h5
      rw [tag_one h6]
      obtain ⟨ds, s, a1, rfl, a3, a4, -, rfl⟩ := digits_read h7
      have := Digits.length a1
      exact .ucn8 a1 (by omega) h3 ht
  · cases s with
    | nil => simp [satisfy] at h1
    | cons x s =>
      simp only [satisfy, if_true, Option.some.injEq, Prod.mk.injEq] at h1
      obtain ⟨rfl, rfl⟩ := h1
      exact .char hc ht

theorem cont_plain (L : E.Lawful) {c : Char} (h : E.xidContinue c = true) :
    c ≠ '\\' ∧ c ≠ '"' ∧ c ≠ '\'' ∧ c ≠ '/' := by
  refine ⟨?_, ?_, ?_, ?_⟩ <;>
  · rintro rfl
    rw [L.contAscii _ (by decide)] at h
    exact absurd h (by decide)

theorem start_cont (L : E.Lawful) {c : Char} (h : E.xidStart c = true ∨ c = '_') :
    E.xidContinue c = true := by
  rcases h with h | rfl
  · exact L.startCont c h
  · rw [L.contAscii _ (by decide)]; decide

theorem many0_identChar_read (L : E.Lawful) : ∀ (k : Nat) (s t : Str), s.length ≤ k →
    many0 (mapOpt identChar fun c => if E.xidContinue c then some c else none) s = some (t, []) →
    Spells s t ∧ ∀ c ∈ t, E.xidContinue c = true := by
  have hsh : Shrinks (mapOpt identChar fun c => if E.xidContinue c then some c else none) :=
    shrinks_identChar.mapOpt _
  intro k
  induction k with
  | zero =>
    intro s t hk h
    cases s with
    | cons _ _ => simp at hk
    | nil =>
      rw [many0_none (by simp [mapOpt, identChar, Parser.or, preceded, Parser.map, seq, tag, satisfy])] at h
      simp only [Option.some.injEq, Prod.mk.injEq, and_true] at h
      rw [← h]
      exact ⟨.nil, by simp⟩
  | succ k ih =>
    intro s t hk h
    rw [many0_eq hsh] at h
    cases hp : mapOpt identChar (fun c => if E.xidContinue c then some c else none) s with
    | none =>
      rw [hp] at h
      simp only [Option.some.injEq, Prod.mk.injEq] at h
      obtain ⟨rfl, rfl⟩ := h
      exact ⟨.nil, by simp⟩
    | some x =>
      obtain ⟨c, r⟩ := x
      rw [hp] at h
      dsimp only at h
      split at h
      · simp at h
      · rename_i hl
        have hle := hsh _ _ _ hp
        split at h
        · rename_i as r' hm
          simp only [Option.some.injEq, Prod.mk.injEq] at h
          obtain ⟨rfl, rfl⟩ := h
          obtain ⟨h1, h2⟩ := ih r as (by omega) hm
          obtain ⟨c', h3, h4⟩ := mapOpt_inv hp
          split at h4
          · rename_i hc
            simp only [Option.some.injEq] at h4
            subst h4
            refine ⟨identChar_read h3 (cont_plain L hc).1 h1, ?_⟩
            intro x hx
            rcases List.mem_cons.1 hx with rfl | hx
            · exact hc
            · exact h2 x hx
          · simp at h4
        · simp at h

theorem identTryFrom_iff (L : E.Lawful) (s id : Str) : identTryFrom E s = some id ↔
    Spec.NameDenotes s id ∧ IsIdent E.xidStart E.xidContinue id := by
  have plain : ∀ {t : Str}, IsIdent E.xidStart E.xidContinue t → '\\' ∉ t := fun h hm =>
    (cont_plain L (isIdent_cont L h _ hm)).1 rfl
  constructor
  · intro h
    by_cases hh : s.head? = some '\\'
    · cases s with
      | nil => simp at hh
      | cons c s =>
        simp only [List.head?_cons, Option.some.injEq] at hh
        subst hh
        obtain ⟨⟨id', r⟩, h1, h2⟩ := Option.map_eq_some_iff.1 h
        simp only at h2
        subst h2
        obtain ⟨h2, rfl⟩ := allConsuming_inv h1
        have hns : isIdentStart E '\\' = false := by
          simp only [isIdentStart, L.startAscii '\\' (by decide)]; decide
        rcases or_inv h2 with h3 | ⟨-, h3⟩
        · simp [identPlain, hns] at h3
        · obtain ⟨⟨c, cs⟩, h4, rfl⟩ := map_inv h3
          obtain ⟨r, h5, h6⟩ := seq_inv h4
          obtain ⟨c', h7, h8⟩ := mapOpt_inv h5
          split at h8
          · rename_i hst
            simp only [Option.some.injEq] at h8
            subst h8
            have hst' : E.xidStart c' = true ∨ c' = '_' := by simpa [isIdentStart] using hst
            obtain ⟨h9, h10⟩ := many0_identChar_read L _ _ _ (Nat.le_refl _) h6
            exact ⟨.inr ⟨rfl, identChar_read h7 (cont_plain L (start_cont L hst')).1 h9⟩, hst', h10⟩
          · simp at h8
    · cases s with
      | nil =>
        rw [identTryFrom_noEscape E (by simp)] at h
        exact ⟨.inl h.1.symm, by rw [h.1]; exact h.2⟩
      | cons c s =>
        have hc : c ≠ '\\' := by simpa using hh
        obtain ⟨⟨id', r⟩, h1, h2⟩ := Option.map_eq_some_iff.1 h
        simp only at h2
        subst h2
        obtain ⟨h2, rfl⟩ := allConsuming_inv h1
        rcases or_inv h2 with h3 | ⟨h3, h4⟩
        · simp only [identPlain] at h3
          split at h3
          · rename_i hst
            have hst' : E.xidStart c = true ∨ c = '_' := by simpa [isIdentStart] using hst
            simp only [Option.some.injEq, Prod.mk.injEq] at h3
            have ha := takeWhile_all.1 h3.2
            rw [takeWhile_eq_of_all ha] at h3
            rw [← h3.1]
            exact ⟨.inl rfl, hst', ha⟩
          · simp at h3
        · exfalso
          obtain ⟨⟨d, cs⟩, h4, -⟩ := map_inv h4
          obtain ⟨r, h5, h6⟩ := seq_inv h4
          obtain ⟨c', h7, h8⟩ := mapOpt_inv h5
          rw [identChar_char s hc] at h7
          simp only [Option.some.injEq, Prod.mk.injEq] at h7
          rw [← h7.1] at h8
          split at h8
          · rename_i hst
            simp [identPlain, hst] at h3
          · simp at h8
  · rintro ⟨rfl | ⟨hh, hs⟩, hi⟩
    · exact (identTryFrom_noEscape E (plain hi) s).2 ⟨rfl, hi⟩
    · cases s with
      | nil => simp at hh
      | cons c s =>
        simp only [List.head?_cons, Option.some.injEq] at hh
        subst hh
        exact (identTryFrom_escaped L hs id).2 ⟨rfl, hi⟩

theorem identContTryFrom_iff (L : E.Lawful) (s id : Str) : identContTryFrom E s = some id ↔
    Spec.NameDenotes s id ∧ id ≠ [] ∧ ∀ c ∈ id, E.xidContinue c = true := by
  constructor
  · intro h
    obtain ⟨⟨id', r⟩, h1, h2⟩ := Option.map_eq_some_iff.1 h
    simp only at h2
    subst h2
    obtain ⟨h2, rfl⟩ := allConsuming_inv h1
    rcases or_inv h2 with h3 | ⟨h3, h4⟩
    · have h5 := takeWhile1_inv h3
      rw [List.append_nil] at h5
      exact ⟨.inl h5.1, takeWhile1_inv_ne h3, h5.2⟩
    · unfold many1 at h4
      split at h4
      · simp at h4
      · rename_i hne
        have hid : id' ≠ [] := by rintro rfl; exact hne _ h4
        obtain ⟨h5, h6⟩ := many0_identChar_read L _ _ _ (Nat.le_refl _) h4
        refine ⟨?_, hid, h6⟩
        cases h5 with
        | nil => exact absurd rfl hid
        | @char c s t hc hs =>
          exfalso
          have := h6 c List.mem_cons_self
          simp [takeWhile1, this] at h3
        | ucn4 a b c d => exact .inr ⟨rfl, .ucn4 a b c d⟩
        | ucn8 a b c d => exact .inr ⟨rfl, .ucn8 a b c d⟩
  · rintro ⟨rfl | ⟨hh, hs⟩, hne, ha⟩
    · unfold identContTryFrom allConsuming identContParseStr
      have := takeWhile1_run (f := E.xidContinue) (t := []) ha hne (by intro c r h; cases h)
      rw [List.append_nil] at this
      rw [or_left this]
      rfl
    · cases s with
      | nil => simp at hh
      | cons c s =>
        simp only [List.head?_cons, Option.some.injEq] at hh
        subst hh
        have hb : E.xidContinue '\\' = false := by rw [L.contAscii _ (by decide)]; decide
        unfold identContTryFrom allConsuming identContParseStr
        rw [or_right (by simp [takeWhile1, hb])]
        unfold many1
        rw [many0_identChar E hs ha]
        cases id with
        | nil => exact absurd rfl hne
        | cons _ _ => rfl

/-! ## What kinds of tokens look like -/

/-- The first character of a name: a continuation character or the `\` of a universal character
name. -/
def NameHead (E : Env) : Str → Prop
  | '\\' :: x :: _ => x = 'u' ∨ x = 'U'
  | c :: _ => E.xidContinue c = true
  | [] => False

/-- The beginning of a number: a digit, or a point and a digit. -/
def NumHead : Str → Prop
  | '.' :: x :: _ => isDigit 10 x = true
  | c :: _ => isDigit 10 c = true
  | [] => False

theorem spells_noQuote (L : E.Lawful) {s t : Str} (h : Spells s t) :
    (∀ c ∈ t, E.xidContinue c = true) → '"' ∉ s ∧ '\'' ∉ s := by
  have hex : ∀ {ds hs}, Digits 16 ds hs → '"' ∉ hs ∧ '\'' ∉ hs := by
    intro ds hs h
    have := Digits.isDigit h
    exact ⟨fun h => absurd (this _ h) (by decide), fun h => absurd (this _ h) (by decide)⟩
  induction h with
  | nil => intro _; simp
  | @char c s t hc _ ih =>
    intro ha
    have h1 := cont_plain L (ha c List.mem_cons_self)
    have h2 := ih (fun x hx => ha x (List.mem_cons_of_mem _ hx))
    simp [h2.1, h2.2, Ne.symm h1.2.1, Ne.symm h1.2.2.1]
  | ucn4 hd _ _ _ ih =>
    intro ha
    have h2 := ih (fun x hx => ha x (List.mem_cons_of_mem _ hx))
    simp [h2.1, h2.2, (hex hd).1, (hex hd).2]
  | ucn8 hd _ _ _ ih =>
    intro ha
    have h2 := ih (fun x hx => ha x (List.mem_cons_of_mem _ hx))
    simp [h2.1, h2.2, (hex hd).1, (hex hd).2]

theorem nameDenotes_shape (L : E.Lawful) {s t : Str} (h : Spec.NameDenotes s t) (hne : t ≠ [])
    (ha : ∀ c ∈ t, E.xidContinue c = true) : NameHead E s ∧ '"' ∉ s ∧ '\'' ∉ s := by
  rcases h with rfl | ⟨hh, hs⟩
  · refine ⟨?_, fun h => (cont_plain L (ha _ h)).2.1 rfl, fun h => (cont_plain L (ha _ h)).2.2.1 rfl⟩
    cases s with
    | nil => exact absurd rfl hne
    | cons c s =>
      have hc := ha c List.mem_cons_self
      have := (cont_plain L hc).1
      unfold NameHead
      split
      · rename_i he; simp only [List.cons.injEq] at he; exact absurd he.1 this
      · rename_i he; simp only [List.cons.injEq] at he; rw [← he.1]; exact hc
      · rename_i he; simp at he
  · refine ⟨?_, spells_noQuote L hs ha⟩
    cases hs with
    | nil => exact absurd rfl hne
    | char hc _ => simp at hh; exact absurd hh hc
    | ucn4 => exact .inl rfl
    | ucn8 => exact .inr rfl

theorem numHead_digit {c : Char} {s : Str} (h : isDigit 10 c = true) : NumHead (c :: s) := by
  have : c ≠ '.' := by rintro rfl; exact absurd h (by decide)
  unfold NumHead
  split
  · rename_i he; simp only [List.cons.injEq] at he; exact absurd he.1 this
  · rename_i he; simp only [List.cons.injEq] at he; rw [← he.1]; exact h
  · rename_i he; simp at he

theorem dec_digit {c : Char} (h : 48 ≤ c.toNat ∧ c.toNat ≤ 57) : isDigit 10 c = true :=
  isDigit_iff.2 ⟨c.toNat - 48, by omega, .inl ⟨by omega, by omega⟩⟩

theorem intToken_head {s : Str} {i : LitInt} (h : Spec.IntToken s i) : NumHead s := by
  obtain ⟨s, u, n, ty, rfl, h, -⟩ := h
  cases h with
  | const h =>
    cases h with
    | dec hd hne _ =>
      cases s with
      | nil => exact absurd rfl hne
      | cons c s => exact numHead_digit (Digits.isDigit hd c List.mem_cons_self)
    | oct => exact numHead_digit (by decide)
    | hex => exact numHead_digit (by decide)
    | bin => exact numHead_digit (by decide)
  | zeros => exact numHead_digit (by decide)

theorem floatToken_head {s : Str} {f : LitFloat} (h : Spec.FloatToken s f) : NumHead s := by
  obtain ⟨t, u, ty, rfl, h, -⟩ := h
  cases h with
  | @fraction a b x ha hb hne _ =>
    cases a with
    | cons c a => exact numHead_digit (dec_digit (ha c List.mem_cons_self))
    | nil =>
      cases b with
      | nil => simp at hne
      | cons c b => exact dec_digit (hb c List.mem_cons_self)
  | @whole a x ha hne _ =>
    cases a with
    | nil => exact absurd rfl hne
    | cons c a => exact numHead_digit (dec_digit (ha c List.mem_cons_self))

theorem stringRead_quote {s : Str} {v : LitString} (h : Spec.StringRead s v) : '"' ∈ s := by
  cases h <;> simp [strToken]

theorem charToken_quote {s : Str} {v : LitChar} (h : Spec.CharToken s v) : '\'' ∈ s := by
  obtain ⟨p, s, n, rfl, -⟩ := h
  simp [chrToken]

theorem lit_shape {s : Str} {l : Lit} (h : Lit.tryFrom s = some l) :
    ('"' ∈ s ∨ '\'' ∈ s) ∨ NumHead s := by
  cases l with
  | char v => exact .inl (.inr (charToken_quote ((C102_chars s v).1 h)))
  | string v => exact .inl (.inl (stringRead_quote ((C102_strings s v).1 h)))
  | float v => exact .inr (floatToken_head ((C75_float_constants s v).1 h))
  | int v => exact .inr (intToken_head ((C103_integers s v).1 h))

theorem punctuators_shape (L : E.Lawful) {p : Str} (h : p ∈ Spec.punctuators) :
    ¬ NameHead E p ∧ ¬ (('"' ∈ p ∨ '\'' ∈ p) ∨ NumHead p) ∧ p.head? ≠ some '\\' := by
  have hc : ∀ c : Char, c.toNat < 128 → (c.isAlphanum || c == '_') = false → ¬ E.xidContinue c = true := by
    intro c h1 h2
    rw [L.contAscii c h1, h2]
    simp
  simp only [Spec.punctuators, List.mem_cons, List.not_mem_nil, or_false] at h
  repeat (rcases h with rfl | h; · exact ⟨hc _ (by decide) (by decide), by simp [NumHead] <;> decide, by decide⟩)

theorem continued_shape {k p : Str} (h : Spec.Continued k) (hk : k ≠ []) :
    ¬ NameHead E (k ++ p) ∧ ¬ NumHead (k ++ p) := by
  cases h with
  | nil => exact absurd rfl hk
  | lf => exact ⟨by simp [NameHead], by simp [NumHead, isDigit, toDigit]⟩
  | crlf => exact ⟨by simp [NameHead], by simp [NumHead, isDigit, toDigit]⟩

theorem continued_noQuote {k : Str} (h : Spec.Continued k) : '"' ∉ k ∧ '\'' ∉ k := by
  induction h with
  | nil => simp
  | lf _ ih => simp [ih.1, ih.2]
  | crlf _ ih => simp [ih.1, ih.2]

theorem punctTryFrom_iff (s p : Str) : punctTryFrom s = some p ↔
    ∃ k, s = k ++ p ∧ Spec.Continued k ∧ p ∈ Spec.punctuators := by
  constructor
  · revert p
    fun_induction punctTryFrom s with
    | case1 s ih =>
      intro p h
      obtain ⟨k, rfl, h1, h2⟩ := ih p h
      exact ⟨_, rfl, .lf h1, h2⟩
    | case2 s ih =>
      intro p h
      obtain ⟨k, rfl, h1, h2⟩ := ih p h
      exact ⟨_, rfl, .crlf h1, h2⟩
    | case3 s _ _ hm =>
      intro p h
      simp only [Option.some.injEq] at h
      subst h
      exact ⟨[], rfl, .nil, hm⟩
    | case4 => intro p h; simp at h
  · rintro ⟨k, rfl, hk, hp⟩
    induction hk with
    | nil =>
      have hb := (punctuators_shape asciiEnv_lawful hp).2.2
      refine (C46_punctuators p p ?_ ?_).2 ⟨rfl, hp⟩
      · rintro ⟨r, rfl⟩; exact hb rfl
      · rintro ⟨r, rfl⟩; exact hb rfl
    | lf _ ih => simpa [punctTryFrom] using ih
    | crlf _ ih => simpa [punctTryFrom] using ih

theorem commentTryFrom_iff (s t : Str) : commentTryFrom s = some t ↔
    s = c!"/*" ++ t ++ c!"*/" ∧ ¬ c!"*/" <:+: t := by
  constructor
  · intro h
    obtain ⟨⟨t', r⟩, h1, h2⟩ := Option.map_eq_some_iff.1 h
    simp only at h2
    subst h2
    obtain ⟨h2, rfl⟩ := allConsuming_inv h1
    unfold delimited terminated at h2
    obtain ⟨⟨a, b⟩, h3, rfl⟩ := map_inv h2
    obtain ⟨r, h4, h5⟩ := seq_inv h3
    obtain ⟨_, j, h6, h7⟩ := preceded_inv h4
    obtain ⟨rfl, -, h8⟩ := takeUntilEnd_inv h7
    have two : ∀ {x y : Char} {i r : Str} {u : Unit}, tag [x, y] i = some (u, r) → i = x :: y :: r := by
      intro x y i r u h
      cases i with
      | nil => simp [tag] at h
      | cons a i =>
        cases i with
        | nil => simp only [tag] at h; split at h <;> simp [tag] at h
        | cons b i =>
          simp only [tag] at h
          split at h
          · rename_i e1
            split at h
            · rename_i e2
              simp at h
              rw [e1, e2, h]
            · simp at h
          · simp at h
    rw [two h6, two h5]
    exact ⟨by simp, h8⟩
  · rintro ⟨rfl, ht⟩
    simp [commentTryFrom, allConsuming, delimited, terminated, preceded, Parser.map, seq, tag,
      takeUntilEnd_text ht]

/-! ## C104 -/

/-- **C104**: a token is read as `m` exactly when it is one of: an identifier, a string, a
character, a floating or an integer constant, a run of identifier characters that is neither of
these, a punctuator of C after any number of line continuations, a comment. -/
theorem C104_tokens (E : Env) (L : E.Lawful) (s : Str) (hs : s ≠ c!"__VA_ARGS__") (m : MacroToken) :
    classify E s = some m ↔ Spec.TokenRead E s m := by
  have noName : ¬ NameHead E s → identTryFrom E s = none ∧ identContTryFrom E s = none := by
    intro h
    constructor
    · cases he : identTryFrom E s with
      | none => rfl
      | some id =>
        obtain ⟨h1, h2⟩ := (identTryFrom_iff L s id).1 he
        exact absurd (nameDenotes_shape L h1 (by rintro rfl; exact h2) (isIdent_cont L h2)).1 h
    · cases he : identContTryFrom E s with
      | none => rfl
      | some id =>
        obtain ⟨h1, h2, h3⟩ := (identContTryFrom_iff L s id).1 he
        exact absurd (nameDenotes_shape L h1 h2 h3).1 h
  have noLit : ¬ (('"' ∈ s ∨ '\'' ∈ s) ∨ NumHead s) → Lit.tryFrom s = none := by
    intro h
    cases he : Lit.tryFrom s with
    | none => rfl
    | some l => exact absurd (lit_shape he) h
  have noIdent : ('"' ∈ s ∨ '\'' ∈ s) ∨ NumHead s → identTryFrom E s = none := by
    intro h
    cases he : identTryFrom E s with
    | none => rfl
    | some id =>
      obtain ⟨h1, h2⟩ := (identTryFrom_iff L s id).1 he
      obtain ⟨h3, h4, h5⟩ := nameDenotes_shape L h1 (by rintro rfl; exact h2) (isIdent_cont L h2)
      rcases h with (h | h) | h
      · exact absurd h h4
      · exact absurd h h5
      · rcases h1 with rfl | ⟨hh, -⟩
        · cases s with
          | nil => exact h2.elim
          | cons c s =>
            exfalso
            have hd : isDigit 10 c = true := by
              unfold NumHead at h
              split at h
              · rename_i he
                simp only [List.cons.injEq] at he
                have := start_cont L h2.1
                rw [he.1, L.contAscii _ (by decide)] at this
                exact absurd this (by decide)
              · rename_i he; simp only [List.cons.injEq] at he; rw [he.1]; exact h
              · exact h.elim
            obtain ⟨d, hd⟩ := isDigit_iff.1 hd
            have hn : 48 ≤ c.toNat ∧ c.toNat ≤ 57 := by
              have := hd.1
              rcases hd.2 with h | h <;> omega
            rcases h2.1 with h | rfl
            · rw [L.startAscii c (by omega)] at h
              simp only [Char.isAlpha, Char.isUpper, Char.isLower, ge_iff_le, UInt32.le_iff_toNat_le,
                Bool.or_eq_true, Bool.and_eq_true, decide_eq_true_eq] at h
              have : c.val.toNat = c.toNat := rfl
              simp at h
              omega
            · exact absurd hn.2 (by decide)
        · cases s with
          | nil => simp at hh
          | cons c s =>
            simp only [List.head?_cons, Option.some.injEq] at hh
            subst hh
            simp [NumHead, isDigit, toDigit] at h
  unfold classify Token.fromStr
  rw [if_neg hs]
  constructor
  · intro h
    cases h1 : identTryFrom E s with
    | some id =>
      rw [h1] at h
      simp only [Token.detokenize, Option.some.injEq] at h
      subst h
      obtain ⟨h2, h3⟩ := (identTryFrom_iff L s id).1 h1
      exact .ident h2 h3
    | none =>
    rw [h1] at h
    cases h2 : Lit.tryFrom s with
    | some l =>
      rw [h2] at h
      simp only [Token.detokenize, Option.some.injEq] at h
      subst h
      cases l with
      | char v => exact .char ((C102_chars s v).1 h2)
      | string v => exact .string ((C102_strings s v).1 h2)
      | float v => exact .float ((C75_float_constants s v).1 h2)
      | int v => exact .int ((C103_integers s v).1 h2)
    | none =>
    rw [h2] at h
    cases h3 : identContTryFrom E s with
    | some id =>
      rw [h3] at h
      simp only [Token.detokenize, Option.some.injEq] at h
      subst h
      obtain ⟨h4, h5, h6⟩ := (identContTryFrom_iff L s id).1 h3
      refine .cont h4 h5 h6 ?_ ?_ ?_
      · intro hi
        rw [(identTryFrom_iff L s id).2 ⟨h4, hi⟩] at h1
        simp at h1
      · intro f hf
        rw [(C75_float_constants s f).2 hf] at h2
        simp at h2
      · intro f hf
        rw [(C103_integers s f).2 hf] at h2
        simp at h2
    | none =>
    rw [h3] at h
    cases h4 : punctTryFrom s with
    | some p =>
      rw [h4] at h
      simp only [Token.detokenize, Option.some.injEq] at h
      subst h
      obtain ⟨k, rfl, h5, h6⟩ := (punctTryFrom_iff s p).1 h4
      exact .punct h5 h6
    | none =>
    rw [h4] at h
    cases h5 : commentTryFrom s with
    | some t =>
      rw [h5] at h
      simp only [Token.detokenize, Option.some.injEq] at h
      subst h
      obtain ⟨rfl, h6⟩ := (commentTryFrom_iff s t).1 h5
      exact .comment h6
    | none => rw [h5] at h; simp [Token.detokenize] at h
  · intro h
    cases h with
    | ident h1 h2 => rw [(identTryFrom_iff L _ _).2 ⟨h1, h2⟩]; rfl
    | string h1 =>
      rw [noIdent (.inl (.inl (stringRead_quote h1))), (C102_strings _ _).2 h1]; rfl
    | char h1 =>
      rw [noIdent (.inl (.inr (charToken_quote h1))), (C102_chars _ _).2 h1]; rfl
    | float h1 =>
      rw [noIdent (.inr (floatToken_head h1)), (C75_float_constants _ _).2 h1]; rfl
    | int h1 =>
      rw [noIdent (.inr (intToken_head h1)), (C103_integers _ _).2 h1]; rfl
    | @cont _ t h1 h2 h3 h4 h5 h6 =>
      have hc := (identContTryFrom_iff L s t).2 ⟨h1, h2, h3⟩
      obtain ⟨-, h7, h8⟩ := nameDenotes_shape L h1 h2 h3
      have hi : identTryFrom E s = none := by
        cases he : identTryFrom E s with
        | none => rfl
        | some id =>
          obtain ⟨h9, h10⟩ := (identTryFrom_iff L s id).1 he
          have := (identContTryFrom_iff L s id).2
            ⟨h9, by rintro rfl; exact h10, isIdent_cont L h10⟩
          rw [hc] at this
          simp only [Option.some.injEq] at this
          rw [← this] at h10
          exact absurd h10 h4
      have hl : Lit.tryFrom s = none := by
        cases he : Lit.tryFrom s with
        | none => rfl
        | some l =>
          cases l with
          | char v => exact absurd (charToken_quote ((C102_chars s v).1 he)) h8
          | string v => exact absurd (stringRead_quote ((C102_strings s v).1 he)) h7
          | float v => exact absurd ((C75_float_constants s v).1 he) (h5 v)
          | int v => exact absurd ((C103_integers s v).1 he) (h6 v)
      rw [hi, hl, hc]; rfl
    | @punct k p h1 h2 =>
      obtain ⟨a, b, c⟩ := punctuators_shape L h2
      have hq : ¬ ('"' ∈ k ++ p ∨ '\'' ∈ k ++ p) := by
        have := continued_noQuote h1
        simp only [List.mem_append]
        rintro ((h | h) | (h | h))
        · exact this.1 h
        · exact b (.inl (.inl h))
        · exact this.2 h
        · exact b (.inl (.inr h))
      have hh : ¬ NameHead E (k ++ p) ∧ ¬ NumHead (k ++ p) := by
        cases k with
        | nil => exact ⟨a, fun h => b (.inr h)⟩
        | cons x k => exact continued_shape h1 (by simp)
      rw [(noName hh.1).1, (noName hh.1).2, noLit (fun h => h.elim hq hh.2),
        (punctTryFrom_iff _ p).2 ⟨k, rfl, h1, h2⟩]
      rfl
    | @comment t h1 =>
      have := fromStr_comment L h1
      unfold Token.fromStr at this
      rw [if_neg hs] at this
      rw [this]
      rfl

/-- A line continuation before a punctuator is dropped. -/
example : classify asciiEnv c!"\\\n\\\r\n->" = some (.punct c!"->") :=
  (C104_tokens asciiEnv asciiEnv_lawful _ (by decide) _).2
    (.punct (k := c!"\\\n\\\r\n") (p := c!"->") (.lf (.crlf .nil)) (by decide))

/-- `0x1g` is not a number: it is a run of identifier characters. -/
example : Spec.TokenRead asciiEnv c!"0x1g" (.identCont c!"0x1g") :=
  (C104_tokens asciiEnv asciiEnv_lawful _ (by decide) _).1 (by decide +kernel)

example : Spec.TokenRead cyrillicEnv c!"\\u0401b" (.ident ['Ё', 'b']) :=
  (C104_tokens cyrillicEnv cyrillicEnv_lawful _ (by decide) _).1 (by decide +kernel)

/-- These are no tokens. -/
example : ∀ s ∈ [c!"@", c!"1.2.3", c!"//", c!"/**/*/", c!"'ab'", c!"\\\n1"], ∀ m,
    ¬ Spec.TokenRead asciiEnv s m := by
  intro s hs m h
  have hv : s ≠ c!"__VA_ARGS__" := by rintro rfl; exact absurd hs (by decide)
  have h1 := (C104_tokens asciiEnv asciiEnv_lawful s hv m).2 h
  have h2 : ∀ s ∈ [c!"@", c!"1.2.3", c!"//", c!"/**/*/", c!"'ab'", c!"\\\n1"],
      classify asciiEnv s = none := by decide +kernel
  rw [h2 s hs] at h1
  simp at h1

/-- **C49**, exactly: a text that denotes an identifier is read as it if and only if it has no
universal character name or starts with one. -/
theorem C49_exact (E : Env) (L : E.Lawful) (s t id : Str) (h : Spells s t) :
    identTryFrom E s = some id ↔
      (id = t ∧ IsIdent E.xidStart E.xidContinue t) ∧ ('\\' ∉ s ∨ s.head? = some '\\') := by
  constructor
  · intro hi
    obtain ⟨h1, h2⟩ := (identTryFrom_iff L s id).1 hi
    have hs : '\\' ∉ s ∨ s.head? = some '\\' := by
      rcases h1 with rfl | ⟨h1, -⟩
      · exact .inl fun hm => (cont_plain L (isIdent_cont L h2 _ hm)).1 rfl
      · exact .inr h1
    exact ⟨(C49_universal_names_partial E L s t id h hs).1 hi, hs⟩
  · rintro ⟨h1, hs⟩
    exact (C49_universal_names_partial E L s t id h hs).2 h1

example : identTryFrom cyrillicEnv c!"a\\u0401" ≠ some ['a', 'Ё'] := fun h =>
  absurd ((C49_exact cyrillicEnv cyrillicEnv_lawful c!"a\\u0401" ['a', 'Ё'] _
    (.char (by decide) spells_0401)).1 h).2 (by decide)

end CMacro
