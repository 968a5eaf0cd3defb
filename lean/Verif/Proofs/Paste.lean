import Verif.Proofs.Lit
import Verif.Proofs.Calls

/-! # Pasting tokens -/

namespace CMacro
open Parser Spec

variable {E : Env}

/-! ## The text of numbers -/

theorem isAlphanum_of_toNat {c : Char}
    (h : (48 ≤ c.toNat ∧ c.toNat ≤ 57) ∨ (65 ≤ c.toNat ∧ c.toNat ≤ 90) ∨
      (97 ≤ c.toNat ∧ c.toNat ≤ 122)) : c.isAlphanum = true := by
  have hv : c.val.toNat = c.toNat := rfl
  simp only [Char.isAlphanum, Char.isAlpha, Char.isUpper, Char.isLower, Char.isDigit,
    Bool.or_eq_true, decide_eq_true_eq, Bool.and_eq_true, ge_iff_le, UInt32.le_iff_toNat_le, hv]
  have e : ∀ k : Char, k.val.toNat = k.toNat := fun _ => rfl
  simp only [e]
  have : 'A'.toNat = 65 ∧ 'Z'.toNat = 90 ∧ 'a'.toNat = 97 ∧ 'z'.toNat = 122 ∧ '0'.toNat = 48 ∧
    '9'.toNat = 57 := by decide
  simp only [this]
  omega

theorem isDigit_alphanum {base : Nat} {c : Char} (h : isDigit base c = true) :
    c.isAlphanum = true := by
  obtain ⟨d, h1, h2⟩ := isDigit_iff.1 h
  exact isAlphanum_of_toNat (by omega)

theorem takeWhile1_inv {f : Char → Bool} {i r s : Str} (h : takeWhile1 f i = some (s, r)) :
    i = s ++ r ∧ ∀ c ∈ s, f c = true := by
  unfold takeWhile1 at h
  split at h
  · simp at h
  · simp only [Option.some.injEq, Prod.mk.injEq] at h
    obtain ⟨rfl, rfl⟩ := h
    refine ⟨(List.takeWhile_append_dropWhile).symm, fun c hc => ?_⟩
    exact (List.all_eq_true.1 List.all_takeWhile) c hc

theorem mapOpt_inv {α β : Type} {p : Parser Char α} {f : α → Option β} {i r : Str} {b : β}
    (h : mapOpt p f i = some (b, r)) : ∃ a, p i = some (a, r) ∧ f a = some b := by
  unfold mapOpt at h
  split at h
  · rename_i a r' ha
    split at h
    · rename_i b' hb
      simp only [Option.some.injEq, Prod.mk.injEq] at h
      obtain ⟨rfl, rfl⟩ := h
      exact ⟨a, ha, hb⟩
    · simp at h
  · simp at h

/-- The two characters matched by `tag_no_case("0x")` and the like. -/
theorem tagNoCase_two_inv {k : Char} (hk : k.toLower = k) (hl : 97 ≤ k.toNat ∧ k.toNat ≤ 122)
    {i r : Str} {u : Unit} (h : tagNoCase ['0', k] i = some (u, r)) :
    ∃ c, i = '0' :: c :: r ∧ c.isAlphanum = true := by
  cases i with
  | nil => simp [tagNoCase] at h
  | cons z i =>
    rw [tagNoCase] at h
    split at h
    · rename_i hz
      have hz' := (toLower_eq_iff (c := z) (k := '0') (by decide)).1 hz
      obtain ⟨c, rfl, hc⟩ := (tagNoCase_single hk).1 h
      have : z = '0' := by
        rcases hz' with h | h
        · exact h
        · exact absurd h.1 (by decide)
      subst this
      refine ⟨c, rfl, isAlphanum_of_toNat ?_⟩
      rcases hc with rfl | hc
      · exact .inr (.inr hl)
      · omega
    · simp at h

theorem intDigits_text {i r : Str} {v : Nat} (h : intDigits i = some (v, r)) :
    ∃ s, i = s ++ r ∧ ∀ c ∈ s, c.isAlphanum = true := by
  unfold intDigits at h
  have hz : ('0' : Char).isAlphanum = true := by decide
  have step : ∀ {s : Str} {c : Char} (f : Char → Bool), (∀ c, f c = true → c.isAlphanum = true) →
      c.isAlphanum = true → (∀ x ∈ s, f x = true) →
      ∀ x ∈ '0' :: c :: s, x.isAlphanum = true := by
    intro s c f hf hc hs x hx
    simp only [List.mem_cons] at hx
    rcases hx with rfl | rfl | hx
    · exact hz
    · exact hc
    · exact hf x (hs x hx)
  replace h := or_inv h
  rcases h with h | ⟨-, h⟩
  · replace h := mapOpt_inv h
    obtain ⟨s, h, _⟩ := h
    replace h := map_inv h
    obtain ⟨⟨u, s'⟩, h, rfl⟩ := h
    replace h := seq_inv h
    obtain ⟨r', h1, h2⟩ := h
    obtain ⟨c, rfl, hc⟩ := tagNoCase_two_inv (by decide) (by decide) h1
    obtain ⟨rfl, h3⟩ := takeWhile1_inv h2
    exact ⟨'0' :: c :: s, rfl, step _ (fun c h => isDigit_alphanum h) hc h3⟩
  replace h := or_inv h
  rcases h with h | ⟨-, h⟩
  · replace h := mapOpt_inv h
    obtain ⟨s, h, _⟩ := h
    replace h := map_inv h
    obtain ⟨⟨u, s'⟩, h, rfl⟩ := h
    replace h := seq_inv h
    obtain ⟨r', h1, h2⟩ := h
    obtain ⟨c, rfl, hc⟩ := tagNoCase_two_inv (by decide) (by decide) h1
    obtain ⟨rfl, h3⟩ := takeWhile1_inv h2
    refine ⟨'0' :: c :: s, rfl, step _ (fun c h => ?_) hc h3⟩
    simp only [Bool.or_eq_true, beq_iff_eq] at h
    rcases h with rfl | rfl <;> decide
  replace h := or_inv h
  rcases h with h | ⟨-, h⟩
  · replace h := mapOpt_inv h
    obtain ⟨s, h, _⟩ := h
    replace h := map_inv h
    obtain ⟨⟨u, s'⟩, h, rfl⟩ := h
    replace h := seq_inv h
    obtain ⟨r', h1, h2⟩ := h
    obtain ⟨rfl, h3⟩ := takeWhile1_inv h2
    cases i with
    | nil => simp [tag] at h1
    | cons z i =>
      simp only [tag] at h1
      split at h1
      · rename_i hz0
        simp only [Option.some.injEq, Prod.mk.injEq, true_and] at h1
        subst h1 hz0
        refine ⟨'0' :: s, rfl, fun x hx => ?_⟩
        rcases List.mem_cons.1 hx with rfl | hx
        · exact hz
        · exact isDigit_alphanum (h3 x hx)
      · simp at h1
  · replace h := mapOpt_inv h
    obtain ⟨s, h, _⟩ := h
    obtain ⟨rfl, h3⟩ := takeWhile1_inv h
    exact ⟨s, rfl, fun x hx => isDigit_alphanum (h3 x hx)⟩

theorem litInt_text {i r : Str} {n : LitInt} (h : LitInt.parseStr i = some (n, r)) :
    r = [] ∧ ∀ c ∈ i, c.isAlphanum = true := by
  replace h := map_inv h
  obtain ⟨⟨v, x⟩, h, rfl⟩ := h
  replace h := seq_inv h
  obtain ⟨r', h1, h2⟩ := h
  obtain ⟨s, rfl, hs⟩ := intDigits_text h1
  obtain ⟨rfl, hm⟩ := intSuffix_inv h2
  refine ⟨rfl, fun c hc => ?_⟩
  rcases List.mem_append.1 hc with hc | hc
  · exact hs c hc
  · have key : ∀ p ∈ Spec.intSuffixes, ∀ c ∈ p.1, c.isAlphanum = true := by decide +kernel
    exact key _ hm c hc

/-- The alternatives of a literal. -/
theorem litTryFrom_inv {s : Str} {l : Lit} (h : Lit.tryFrom s = some l) :
    (∃ c, l = .char c ∧ LitChar.parseStr s = some (c, [])) ∨
    (∃ c, l = .string c ∧ LitString.parseStr s = some (c, [])) ∨
    (∃ c, l = .float c ∧ LitFloat.parseStr s = some (c, [])) ∨
    (∃ c, l = .int c ∧ LitInt.parseStr s = some (c, [])) := by
  unfold Lit.tryFrom at h
  cases ha : allConsuming Lit.parseStr s with
  | none => simp [ha] at h
  | some x =>
    obtain ⟨y, r⟩ := x
    simp only [ha, Option.map_some, Option.some.injEq] at h
    subst h
    obtain ⟨h, rfl⟩ := allConsuming_inv ha
    unfold Lit.parseStr at h
    replace h := or_inv h
    rcases h with h | ⟨-, h⟩
    · replace h := map_inv h; obtain ⟨c, h, rfl⟩ := h; exact .inl ⟨c, rfl, h⟩
    replace h := or_inv h
    rcases h with h | ⟨-, h⟩
    · replace h := map_inv h; obtain ⟨c, h, rfl⟩ := h; exact .inr (.inl ⟨c, rfl, h⟩)
    replace h := or_inv h
    rcases h with h | ⟨-, h⟩
    · replace h := map_inv h; obtain ⟨c, h, rfl⟩ := h; exact .inr (.inr (.inl ⟨c, rfl, h⟩))
    · replace h := map_inv h; obtain ⟨c, h, rfl⟩ := h; exact .inr (.inr (.inr ⟨c, rfl, h⟩))

theorem tag1_inv {k : Char} {i r : Str} {u : Unit} (h : tag [k] i = some (u, r)) : i = k :: r := by
  cases i with
  | nil => simp [tag] at h
  | cons z i =>
    simp only [tag] at h
    split at h
    · rename_i hz
      simp only [Option.some.injEq, Prod.mk.injEq, true_and] at h
      rw [hz, h]
    · simp at h

theorem litString_ordinary_head {i r : Str} {bs : List UInt8}
    (h : LitString.parseStr i = some (.ordinary bs, r)) : i.head? = some '"' := by
  unfold LitString.parseStr at h
  replace h := or_inv h
  rcases h with h | ⟨-, h⟩
  · replace h := map_inv h
    obtain ⟨c, h, -⟩ := h
    unfold parseOrdinary delimited terminated preceded at h
    replace h := map_inv h
    obtain ⟨x, h, -⟩ := h
    replace h := seq_inv h
    obtain ⟨r', h, -⟩ := h
    replace h := map_inv h
    obtain ⟨y, h, -⟩ := h
    replace h := seq_inv h
    obtain ⟨r'', h, -⟩ := h
    rw [tag1_inv h]; rfl
  replace h := or_inv h
  rcases h with h | ⟨-, h⟩
  · replace h := map_inv h
    obtain ⟨x, h, hx⟩ := h
    replace h := seq_inv h
    obtain ⟨r', h1, h2⟩ := h
    obtain ⟨y, h2, hy⟩ := map_inv h2
    rw [hy] at hx; simp at hx
  replace h := or_inv h
  rcases h with h | ⟨-, h⟩
  · replace h := map_inv h
    obtain ⟨x, h, hx⟩ := h
    replace h := seq_inv h
    obtain ⟨r', h1, h2⟩ := h
    obtain ⟨y, h2, hy⟩ := map_inv h2
    rw [hy] at hx; simp at hx
  replace h := or_inv h
  rcases h with h | ⟨-, h⟩
  · replace h := map_inv h
    obtain ⟨x, h, hx⟩ := h
    replace h := seq_inv h
    obtain ⟨r', h1, h2⟩ := h
    obtain ⟨y, h2, hy⟩ := map_inv h2
    rw [hy] at hx; simp at hx
  · replace h := map_inv h
    obtain ⟨x, h, hx⟩ := h
    replace h := seq_inv h
    obtain ⟨r', h1, h2⟩ := h
    obtain ⟨y, h2, hy⟩ := map_inv h2
    rw [hy] at hx; simp at hx

theorem litChar_ordinary_head {i r : Str} {n : Nat}
    (h : LitChar.parseStr i = some (.ordinary n, r)) : i.head? = some '\'' := by
  replace h := mapOpt_inv h
  obtain ⟨⟨p, c⟩, h, hp⟩ := h
  replace h := seq_inv h
  obtain ⟨r', h1, h2⟩ := h
  simp only at h1 h2 hp
  have : p = none := by
    cases p with
    | none => rfl
    | some p =>
      cases p <;> simp only [LitChar.withPrefix] at hp
      all_goals first
        | (split at hp <;> simp at hp)
        | simp at hp
  subst this
  rcases opt_inv h1 with ⟨-, rfl, -⟩ | ⟨a, ha, -⟩
  · unfold LitChar.parseUnprefixed delimited terminated preceded at h2
    obtain ⟨x, h, -⟩ := map_inv h2
    replace h := seq_inv h
    obtain ⟨r', h, -⟩ := h
    replace h := map_inv h
    obtain ⟨y, h, -⟩ := h
    replace h := seq_inv h
    obtain ⟨r'', h, -⟩ := h
    rw [tag1_inv h]; rfl
  · simp at ha

/-! ## Tokens without backslashes -/

theorem punctTryFrom_noEscape {s p : Str} (h : '\\' ∉ s) :
    punctTryFrom s = some p ↔ p = s ∧ s ∈ punctTable := by
  have h1 : ¬ c!"\\\n" <+: s := fun hp => h (hp.subset (by decide))
  have h2 : ¬ c!"\\\r\n" <+: s := fun hp => h (hp.subset (by decide))
  unfold punctTryFrom
  split
  · exact absurd (by simp) h1
  · exact absurd (by simp) h2
  · split
    · rename_i hm
      simp only [Option.some.injEq]
      exact ⟨fun he => ⟨he.symm, hm⟩, fun he => he.1.symm⟩
    · rename_i hm
      simp [hm]

theorem contNoEscape {s id : Str} (h : '\\' ∉ s) (hh : identContTryFrom E s = some id) :
    id = s ∧ s ≠ [] ∧ ∀ c ∈ s, E.xidContinue c = true := by
  refine ⟨identContTryFrom_noEscape E h id hh, ?_⟩
  simp only [identContTryFrom, allConsuming, identContParseStr, Parser.or] at hh
  cases hr : takeWhile1 E.xidContinue s with
  | some x =>
    obtain ⟨a, r⟩ := x
    rw [hr] at hh
    have := takeWhile1_inv hr
    cases r with
    | cons c r => simp at hh
    | nil =>
      simp only [List.append_nil] at this
      obtain ⟨rfl, h2⟩ := this
      refine ⟨?_, h2⟩
      rintro rfl
      simp [takeWhile1] at hr
  | none =>
    exfalso
    rw [hr] at hh
    have hm : many0 (mapOpt identChar fun c => if E.xidContinue c then some c else none) s =
        some ([], s) := by
      apply many0_none
      cases s with
      | nil => simp [mapOpt, identChar, Parser.or, preceded, Parser.map, seq, tag, satisfy]
      | cons c cs =>
        have hc : c ≠ '\\' := by rintro rfl; simp at h
        have hx : E.xidContinue c = false := by
          cases hx : E.xidContinue c with
          | false => rfl
          | true => simp [takeWhile1, List.takeWhile_cons, hx] at hr
        simp [mapOpt, identChar_char cs hc, hx]
    simp [many1, hm] at hh

/-- The kinds of token a spelling without backslash can be. -/
inductive FromStr (E : Env) (s : Str) : Token → Prop
  | va : s = c!"__VA_ARGS__" → FromStr E s .varArgs
  | ident : s ≠ c!"__VA_ARGS__" → IsIdent E.xidStart E.xidContinue s → FromStr E s (.ident s)
  | lit {l} : identTryFrom E s = none → Lit.tryFrom s = some l → FromStr E s (.lit l s)
  | cont : identTryFrom E s = none → Lit.tryFrom s = none → s ≠ [] →
      (∀ c ∈ s, E.xidContinue c = true) → FromStr E s (.identCont s)
  | punct : s ∈ punctTable → FromStr E s (.punct s)
  | comment {c} : commentTryFrom s = some c → FromStr E s (.comment c)
  | plain : identTryFrom E s = none → Lit.tryFrom s = none → identContTryFrom E s = none →
      s ∉ punctTable → FromStr E s (.plain s)

theorem fromStr_spec {s : Str} (h : '\\' ∉ s) : FromStr E s (Token.fromStr E s) := by
  unfold Token.fromStr
  split
  · rename_i hs; exact .va hs
  · rename_i hs
    split
    · rename_i id hid
      obtain ⟨rfl, h2⟩ := (identTryFrom_noEscape E h id).1 hid
      exact .ident hs h2
    · rename_i hid
      split
      · rename_i l hl; exact .lit hid hl
      · rename_i hl
        split
        · rename_i ic hic
          obtain ⟨rfl, h1, h2⟩ := contNoEscape h hic
          exact .cont hid hl h1 h2
        · rename_i hic
          split
          · rename_i p hp
            obtain ⟨rfl, h2⟩ := (punctTryFrom_noEscape h).1 hp
            exact .punct h2
          · rename_i hp
            split
            · rename_i c hc; exact .comment hc
            · refine .plain hid hl hic fun hm => ?_
              rw [(punctTryFrom_noEscape h).2 ⟨rfl, hm⟩] at hp
              simp at hp

theorem commentTryFrom_head {s c : Str} (h : commentTryFrom s = some c) : c!"/*" <+: s := by
  unfold commentTryFrom at h
  cases ha : allConsuming (delimited (tag c!"/*") takeUntilEnd (tag c!"*/")) s with
  | none => simp [ha] at h
  | some x =>
    obtain ⟨y, r⟩ := x
    obtain ⟨h, -⟩ := allConsuming_inv ha
    unfold delimited terminated preceded at h
    replace h := map_inv h
    obtain ⟨x, h, -⟩ := h
    replace h := seq_inv h
    obtain ⟨r', h, -⟩ := h
    replace h := map_inv h
    obtain ⟨y, h, -⟩ := h
    replace h := seq_inv h
    obtain ⟨r'', h, -⟩ := h
    have := tag_pair_inv h
    rw [this]
    exact ⟨r'', rfl⟩

theorem isIdent_append (L : E.Lawful) {a b : Str} (ha : IsIdent E.xidStart E.xidContinue a)
    (hb : ∀ c ∈ b, E.xidContinue c = true) : IsIdent E.xidStart E.xidContinue (a ++ b) := by
  cases a with
  | nil => exact absurd ha (by simp [IsIdent])
  | cons c cs =>
    refine ⟨ha.1, fun x hx => ?_⟩
    rcases List.mem_append.1 hx with hx | hx
    · exact ha.2 x hx
    · exact hb x hx

theorem cont_underscore (L : E.Lawful) : E.xidContinue '_' = true := by
  rw [L.contAscii _ (by decide)]; decide

theorem isIdent_cont (L : E.Lawful) {a : Str} (ha : IsIdent E.xidStart E.xidContinue a) :
    ∀ c ∈ a, E.xidContinue c = true := by
  cases a with
  | nil => intro c hc; simp at hc
  | cons c cs =>
    intro x hx
    rcases List.mem_cons.1 hx with rfl | hx
    · rcases ha.1 with h | h
      · exact L.startCont _ h
      · rw [h]; exact cont_underscore L
    · exact ha.2 x hx

theorem cont_alphanum (L : E.Lawful) {c : Char} (h : c.isAlphanum = true) :
    E.xidContinue c = true := by
  have : c.toNat < 128 := by
    simp only [Char.isAlphanum, Char.isAlpha, Char.isUpper, Char.isLower, Char.isDigit,
      Bool.or_eq_true, decide_eq_true_eq, Bool.and_eq_true, ge_iff_le, UInt32.le_iff_toNat_le] at h
    have hv : c.val.toNat = c.toNat := rfl
    rw [hv] at h
    have e : ∀ k : Char, k.val.toNat = k.toNat := fun _ => rfl
    have : 'A'.toNat = 65 ∧ 'Z'.toNat = 90 ∧ 'a'.toNat = 97 ∧ 'z'.toNat = 122 ∧ '0'.toNat = 48 ∧
      '9'.toNat = 57 := by decide
    simp only [e, this] at h
    omega
  rw [L.contAscii c this, h]; rfl

theorem notCont_quote (L : E.Lawful) : E.xidContinue '"' = false ∧ E.xidContinue '\'' = false := by
  constructor
  · rw [L.contAscii _ (by decide)]; decide
  · rw [L.contAscii _ (by decide)]; decide

/-- A text with a character that no identifier contains. -/
theorem identTryFrom_none (L : E.Lawful) {s : Str} (h : '\\' ∉ s) {c : Char} (hc : c ∈ s)
    (hx : E.xidContinue c = false) : identTryFrom E s = none := by
  cases hi : identTryFrom E s with
  | none => rfl
  | some id =>
    have := isIdent_cont L ((identTryFrom_noEscape E h id).1 hi).2 c hc
    rw [hx] at this
    simp at this

theorem fromStr_of_ident {s : Str} (h : '\\' ∉ s) (hv : s ≠ c!"__VA_ARGS__")
    (hi : IsIdent E.xidStart E.xidContinue s) : Token.fromStr E s = .ident s :=
  fromStr_ident.2 ⟨hv, (identTryFrom_noEscape E h s).2 ⟨rfl, hi⟩⟩

theorem fromStr_of_lit {s : Str} {l : Lit} (hv : s ≠ c!"__VA_ARGS__")
    (hi : identTryFrom E s = none) (hl : Lit.tryFrom s = some l) :
    Token.fromStr E s = .lit l s := by
  unfold Token.fromStr
  rw [if_neg hv, hi, hl]

/-- Reclassification agrees with reading the text, apart from punctuators and comments. -/
theorem reclassify_eq {s : Str} (h : '\\' ∉ s) (hv : s ≠ c!"__VA_ARGS__") (hp : s ∉ punctTable)
    (hc : ¬ c!"/*" <+: s) : reclassify E s = Token.fromStr E s := by
  unfold reclassify Token.fromStr
  rw [if_neg hv]
  cases identTryFrom E s with
  | some id => rfl
  | none =>
    cases Lit.tryFrom s with
    | some l => rfl
    | none =>
      cases identContTryFrom E s with
      | some ic => rfl
      | none =>
        have h1 : punctTryFrom s = none := by
          cases hh : punctTryFrom s with
          | none => rfl
          | some p => exact absurd ((punctTryFrom_noEscape h).1 hh).2 hp
        have h2 : commentTryFrom s = none := by
          cases hh : commentTryFrom s with
          | none => rfl
          | some p => exact absurd (commentTryFrom_head hh) hc
        simp only [h1, h2]

/-- **Pasting two tokens gives the token spelled by the joined spelling**, unless that is a
punctuator, a comment or `__VA_ARGS__`. -/
theorem concat_fromStr (L : E.Lawful) {a b : Str} (ha : '\\' ∉ a) (hb : '\\' ∉ b)
    (hv : a ++ b ≠ c!"__VA_ARGS__") (hp : a ++ b ∉ punctTable) (hc : ¬ c!"/*" <+: a ++ b)
    {t : Token} (h : (Token.fromStr E a).concat E (Token.fromStr E b) = .ok t) :
    t = Token.fromStr E (a ++ b) := by
  have hab : '\\' ∉ a ++ b := by
    intro hm
    rcases List.mem_append.1 hm with hm | hm
    · exact ha hm
    · exact hb hm
  have hr := reclassify_eq (E := E) hab hv hp hc
  have Fa := fromStr_spec (E := E) ha
  have Fb := fromStr_spec (E := E) hb
  generalize hta : Token.fromStr E a = ta at *
  generalize htb : Token.fromStr E b = tb at *
  unfold Token.concat at h
  have hgen : ∀ {x y : Token}, x.pasteText = some a → y.pasteText = some b →
      concatGeneral E x y = .ok t → t = Token.fromStr E (a ++ b) := by
    intro x y hx hy hg
    unfold concatGeneral at hg
    rw [hx, hy] at hg
    simp only [Except.ok.injEq] at hg
    rw [← hg, hr]
  cases Fa with
  | va _ =>
    cases Fb <;> simp [Token.strip, concatCore, concatGeneral, Token.pasteText] at h
  | comment _ =>
    cases Fb <;> simp [Token.strip, concatCore, concatGeneral, Token.pasteText] at h
  | punct hpa =>
    cases Fb with
    | punct hpb =>
      exfalso
      simp only [Token.strip, concatCore] at h
      split at h
      · rename_i p hpc
        have key : ∀ x ∈ punctTable, ∀ y ∈ punctTable, ∀ z ∈ punctConcat x y,
            x ++ y ∈ punctTable := by decide +kernel
        exact hp (key a hpa b hpb p hpc)
      · simp at h
    | lit hi hl =>
      simp only [Token.strip, concatCore, concatPunctLit] at h
      split at h
      · rename_i hdot
        split at h
        · simp at h
        · simp at h
        all_goals
          split at h
          · rename_i l' hl'
            simp only [Except.ok.injEq] at h
            rw [← h]
            refine (fromStr_of_lit hv (identTryFrom_none L hab (c := '.') ?_ ?_) hl').symm
            · simp [hdot]
            · rw [L.contAscii _ (by decide)]; decide
          · simp at h
      · simp at h
    | _ => simp [Token.strip, concatCore, concatGeneral, Token.pasteText] at h
  | ident hva hia =>
    cases Fb with
    | ident hvb hib =>
      simp only [Token.strip, concatCore, Except.ok.injEq] at h
      rw [← h, fromStr_of_ident hab hv (isIdent_append L hia (isIdent_cont L hib))]
    | cont _ _ _ hcb =>
      simp only [Token.strip, concatCore, Except.ok.injEq] at h
      rw [← h, fromStr_of_ident hab hv (isIdent_append L hia hcb)]
    | plain => exact hgen rfl rfl (by simpa [Token.strip, concatCore] using h)
    | lit hi hl =>
      simp only [Token.strip, concatCore, concatIdentLit] at h
      split at h
      · rename_i bs
        split at h
        · split at h
          · rename_i l' hl'
            simp only [Except.ok.injEq] at h
            rw [← h]
            have hq : b.head? = some '"' := by
              rcases litTryFrom_inv hl with ⟨c, h1, h2⟩ | ⟨c, h1, h2⟩ | ⟨c, h1, h2⟩ | ⟨c, h1, h2⟩
              all_goals simp at h1
              subst h1
              exact litString_ordinary_head h2
            refine (fromStr_of_lit hv (identTryFrom_none L hab (c := '"') ?_ (notCont_quote L).1) hl').symm
            exact List.mem_append_right _ (List.mem_of_mem_head? hq)
          · simp at h
        · simp at h
      · rename_i bs
        split at h
        · split at h
          · rename_i l' hl'
            simp only [Except.ok.injEq] at h
            rw [← h]
            have hq : b.head? = some '\'' := by
              rcases litTryFrom_inv hl with ⟨c, h1, h2⟩ | ⟨c, h1, h2⟩ | ⟨c, h1, h2⟩ | ⟨c, h1, h2⟩
              all_goals simp at h1
              subst h1
              exact litChar_ordinary_head h2
            refine (fromStr_of_lit hv (identTryFrom_none L hab (c := '\'') ?_ (notCont_quote L).2) hl').symm
            exact List.mem_append_right _ (List.mem_of_mem_head? hq)
          · simp at h
        · simp at h
      · simp at h
      · simp at h
      · simp only [Except.ok.injEq] at h
        rw [← h]
        refine (fromStr_of_ident hab hv (isIdent_append L hia fun c hc => ?_)).symm
        rcases litTryFrom_inv hl with ⟨c, h1, h2⟩ | ⟨c, h1, h2⟩ | ⟨c, h1, h2⟩ | ⟨c, h1, h2⟩
        all_goals simp at h1
        exact cont_alphanum L ((litInt_text h2).2 _ hc)
      · split at h
        · rename_i hall
          have hi' := isIdent_append L hia (fun c hc => List.all_eq_true.1 hall c hc)
          rw [(identTryFrom_noEscape E hab (a ++ b)).2 ⟨rfl, hi'⟩] at h
          simp only [Except.ok.injEq] at h
          rw [← h, fromStr_of_ident hab hv hi']
        · simp at h
    | _ => simp [Token.strip, concatCore, concatGeneral, Token.pasteText] at h
  | lit hia hla =>
    rename_i l
    cases l with
    | string s => cases Fb <;> simp [Token.strip, concatCore] at h
    | char s => cases Fb <;> simp [Token.strip, concatCore] at h
    | int n =>
      cases Fb with
      | ident => exact hgen rfl rfl (by simpa [Token.strip, concatCore] using h)
      | lit => exact hgen rfl rfl (by simpa [Token.strip, concatCore] using h)
      | cont => exact hgen rfl rfl (by simpa [Token.strip, concatCore] using h)
      | plain => exact hgen rfl rfl (by simpa [Token.strip, concatCore] using h)
      | _ => simp [Token.strip, concatCore, concatGeneral, Token.pasteText] at h
    | float n =>
      cases Fb with
      | ident => exact hgen rfl rfl (by simpa [Token.strip, concatCore] using h)
      | lit => exact hgen rfl rfl (by simpa [Token.strip, concatCore] using h)
      | cont => exact hgen rfl rfl (by simpa [Token.strip, concatCore] using h)
      | plain => exact hgen rfl rfl (by simpa [Token.strip, concatCore] using h)
      | _ => simp [Token.strip, concatCore, concatGeneral, Token.pasteText] at h
  | cont =>
    cases Fb with
    | ident => exact hgen rfl rfl (by simpa [Token.strip, concatCore] using h)
    | lit => exact hgen rfl rfl (by simpa [Token.strip, concatCore] using h)
    | cont => exact hgen rfl rfl (by simpa [Token.strip, concatCore] using h)
    | plain => exact hgen rfl rfl (by simpa [Token.strip, concatCore] using h)
    | _ => simp [Token.strip, concatCore, concatGeneral, Token.pasteText] at h
  | plain =>
    cases Fb with
    | ident => exact hgen rfl rfl (by simpa [Token.strip, concatCore] using h)
    | lit => exact hgen rfl rfl (by simpa [Token.strip, concatCore] using h)
    | cont => exact hgen rfl rfl (by simpa [Token.strip, concatCore] using h)
    | plain => exact hgen rfl rfl (by simpa [Token.strip, concatCore] using h)
    | _ => simp [Token.strip, concatCore, concatGeneral, Token.pasteText] at h

end CMacro
