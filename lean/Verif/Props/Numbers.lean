import Verif.Proofs.Number

/-!
# Properties C24, C25, C50: integer literals
-/

namespace CMacro
open Parser
open Spec (Digits Digit positional IntConst)

/-- Text that cannot be a continuation of a number: it does not start with a (hexadecimal)
digit, a dot or an `x`. -/
def Spec.NumEnd (t : Str) : Prop :=
  ∀ c r, t = c :: r → (∀ d, ¬ Digit 16 d c) ∧ c ∉ c!".xX"

/-- The same, in terms of the scanner. -/
def NumEnd (t : Str) : Prop :=
  ∀ c r, t = c :: r → isDigit 16 c = false ∧ c ∉ c!".xX"

theorem Spec.NumEnd.scan {t : Str} (h : Spec.NumEnd t) : CMacro.NumEnd t := by
  intro c r hcr
  refine ⟨?_, (h c r hcr).2⟩
  cases hd : isDigit 16 c with
  | false => rfl
  | true =>
    obtain ⟨d, h1⟩ := isDigit_iff.1 hd
    exact absurd h1 ((h c r hcr).1 d)

theorem NumEnd.spec {t : Str} (h : NumEnd t) : Spec.NumEnd t := by
  intro c r hcr
  refine ⟨fun d hd => ?_, (h c r hcr).2⟩
  have := isDigit_iff.2 ⟨d, hd⟩
  rw [(h c r hcr).1] at this
  simp at this

theorem NumEnd.noDigit {t : Str} (h : NumEnd t) {b : Nat} (hb : b ≤ 16) : NoStart (isDigit b) t := by
  intro c r hcr
  cases hd : isDigit b c with
  | false => rfl
  | true =>
    obtain ⟨d, h1, h2⟩ := isDigit_iff.1 hd
    have := isDigit_iff.2 ⟨d, (⟨by omega, h2⟩ : Digit 16 d c)⟩
    rw [(h c r hcr).1] at this
    simp at this

theorem NumEnd.noFloat {t : Str} (h : NumEnd t) :
    NoStart (fun c => c == '.' || c == 'e' || c == 'E') t := by
  intro c r hcr
  have h1 := h c r hcr
  simp only [Bool.or_eq_false_iff, beq_eq_false_iff_ne]
  refine ⟨⟨?_, ?_⟩, ?_⟩
  · rintro rfl; simp at h1
  · rintro rfl; exact absurd h1.1 (by decide)
  · rintro rfl; exact absurd h1.1 (by decide)

/-- The scanner reads exactly the digits, or (on overflow) leaves text that is no suffix. -/
theorem intConst_digits {s t : Str} {v : Nat} (h : IntConst s v) (ht : NumEnd t) :
    (v ≤ i128Max → intDigits (s ++ t) = some (v, t)) ∧
    (i128Max < v → LitInt.parseStr (s ++ t) = none) := by
  have nosuf : ∀ (x : Char) (r : Str), x ∈ c!"xXbB" → intDigits (s ++ t) = some (0, x :: r) →
      LitInt.parseStr (s ++ t) = none := by
    intro x r hx hd
    refine map_none (seq_none' hd ?_)
    cases hs : intSuffix (x :: r) with
    | none => rfl
    | some y =>
      obtain ⟨y, r'⟩ := y
      have := intSuffix_head (intSuffix_inv hs).2 x r rfl
      simp only [List.mem_cons, List.not_mem_nil, or_false] at hx this
      rcases hx with rfl | rfl | rfl | rfl <;> simp at this
  cases h with
  | @dec ds s hd hne hz =>
    have := intDigits_dec hd hne hz (ht.noDigit (by decide))
    exact ⟨fun hv => by rw [this, if_pos hv],
      fun hv => map_none (seq_none (by rw [this, if_neg (by omega)]))⟩
  | @oct ds s hd =>
    by_cases hne : s = []
    · subst hne
      cases hd
      refine ⟨fun _ => ?_, fun hv => absurd hv (by decide)⟩
      have := intDigits_zero (t := t) (ht.noDigit (by decide)) (fun c r hcr => by
        have := ht c r hcr
        simp only [List.mem_cons, List.not_mem_nil, or_false, not_or] at this
        refine ⟨this.2.2.1, this.2.2.2, ?_, ?_⟩
        · rintro rfl; exact absurd this.1 (by decide)
        · rintro rfl; exact absurd this.1 (by decide))
      exact this
    · have := intDigits_oct hd hne (ht.noDigit (by decide))
      exact ⟨fun hv => by rw [this, if_pos hv],
        fun hv => map_none (seq_none (by rw [this, if_neg (by omega)]))⟩
  | @hex x ds s hx hd hne =>
    have := intDigits_hex hx hd hne (ht.noDigit (by decide))
    refine ⟨fun hv => by rw [this, if_pos hv], fun hv => nosuf x (s ++ t) ?_ ?_⟩
    · rcases hx with rfl | rfl <;> simp
    · rw [this, if_neg (by omega)]; rfl
  | @bin x ds s hx hd hne =>
    have := intDigits_bin hx hd hne (ht.noDigit (by decide))
    refine ⟨fun hv => by rw [this, if_pos hv], fun hv => nosuf x (s ++ t) ?_ ?_⟩
    · rcases hx with rfl | rfl <;> simp
    · rw [this, if_neg (by omega)]; rfl

theorem intConst_head {s : Str} {v : Nat} (h : IntConst s v) (t : Str) (ht : NumEnd t) :
    Lit.parseStr (s ++ t) = map LitInt.parseStr Lit.int (s ++ t) := by
  have key : ∀ (c : Char) (r : Str), isDigit 10 c = true → LitFloat.parseStr (c :: r) = none →
      Lit.parseStr (c :: r) = map LitInt.parseStr Lit.int (c :: r) := by
    intro c r hc hf
    rw [lit_digit_head hc, or_right (map_none hf)]
  have hexlike : ∀ (x : Char) (s : Str), x ∈ c!"xXbB" →
      LitFloat.parseStr ('0' :: x :: (s ++ t)) = none := by
    intro x s hx
    have : ∀ f : Char → Bool, f x = false → NoStart f (x :: (s ++ t)) := by
      intro f hf c r hcr
      simp only [List.cons.injEq] at hcr
      rw [← hcr.1, hf]
    refine float_none (s := c!"0") (t := x :: (s ++ t)) (by simp; decide) (by simp) (this _ ?_)
      (this _ ?_) <;>
    · simp only [List.mem_cons, List.not_mem_nil, or_false] at hx
      rcases hx with rfl | rfl | rfl | rfl <;> decide
  cases h with
  | @dec ds s hd hne hz =>
    cases hd with
    | nil => exact absurd rfl hne
    | @cons d ds c s hc hs =>
      have hd := Digits.cons hc hs
      exact key c (s ++ t) (isDigit_iff.2 ⟨d, hc⟩)
        (float_none (s := c :: s) (Digits.isDigit hd) hne (ht.noDigit (by decide)) ht.noFloat)
  | @oct ds s hd =>
    have hd10 : Digits 10 (0 :: ds) ('0' :: s) :=
      .cons ⟨by decide, .inl (by decide)⟩ (Digits.mono (by decide) hd)
    exact key '0' (s ++ t) (by decide) (float_none (s := '0' :: s) (Digits.isDigit hd10) (by simp)
      (ht.noDigit (by decide)) ht.noFloat)
  | @hex x ds s hx hd hne =>
    exact key '0' (x :: (s ++ t)) (by decide)
      (hexlike x s (by rcases hx with rfl | rfl <;> simp))
  | @bin x ds s hx hd hne =>
    exact key '0' (x :: (s ++ t)) (by decide)
      (hexlike x s (by rcases hx with rfl | rfl <;> simp))

theorem numEnd_nil : NumEnd [] := by intro c r h; simp at h

theorem numEnd_suffix {t : Str} {ty : Option BuiltInType} (h : (t, ty) ∈ Spec.intSuffixes) :
    NumEnd t := by
  intro c r hcr
  have := intSuffix_head h c r hcr
  simp only [List.mem_cons, List.not_mem_nil, or_false] at this
  rcases this with rfl | rfl | rfl | rfl | rfl | rfl <;> decide

theorem toInt_ofNat {v : Nat} (h : v < 2 ^ 127) : (BitVec.ofNat 128 v).toInt = v := by
  rw [BitVec.toInt_eq_toNat_cond, BitVec.toNat_ofNat, Nat.mod_eq_of_lt (by omega), if_pos (by omega)]

/-- **C25**: after the digits of an integer constant, exactly the suffixes of the table are
accepted, each giving its type; any other trailing text that does not continue the number
makes the token not a literal at all. -/
theorem C25_suffixes_exact (s t : Str) (v : Nat) (h : IntConst s v) (hv : v < 2 ^ 127)
    (ht : Spec.NumEnd t) (l : Lit) :
    Lit.tryFrom (s ++ t) = some l ↔
      ∃ ty, (t, ty) ∈ Spec.intSuffixes ∧ l = .int ⟨BitVec.ofNat 128 v, ty⟩ := by
  replace ht := ht.scan
  have hv' : v ≤ i128Max := by simp only [i128Max]; omega
  have hd := (intConst_digits h ht).1 hv'
  constructor
  · intro hl
    unfold Lit.tryFrom allConsuming at hl
    rw [intConst_head h t ht] at hl
    split at hl
    · rename_i l' hl'
      simp only [Option.map_some, Option.some.injEq] at hl
      subst hl
      replace hl' := map_inv hl'
      obtain ⟨i, hi, rfl⟩ := hl'
      have := litInt_inv hd hi
      exact ⟨i.suffix, this.2, by rw [← this.1]⟩
    · simp at hl
  · rintro ⟨ty, hm, rfl⟩
    have := litInt_of_digits hd hm
    unfold Lit.tryFrom allConsuming
    rw [intConst_head h t ht, map_some this]
    rfl

/-- **C24**: an integer constant below 2^127 is read with its mathematical value, whatever its
base and length, and with every suffix. -/
theorem C24_value (s t : Str) (v : Nat) (ty : Option BuiltInType) (h : IntConst s v)
    (hv : v < 2 ^ 127) (ht : (t, ty) ∈ Spec.intSuffixes) :
    ∃ i : LitInt, Lit.tryFrom (s ++ t) = some (.int i) ∧ i.value.toInt = v ∧ i.suffix = ty :=
  ⟨_, (C25_suffixes_exact s t v h hv (numEnd_suffix ht).spec _).2 ⟨ty, ht, rfl⟩, toInt_ofNat hv, rfl⟩

/-- **C24**: from 2^127 on the token is rejected, whatever follows the digits. -/
theorem C24_overflow_rejected (s t : Str) (v : Nat) (h : IntConst s v) (hv : 2 ^ 127 ≤ v)
    (ht : Spec.NumEnd t) : Lit.tryFrom (s ++ t) = none := by
  replace ht := ht.scan
  have := (intConst_digits h ht).2 (by simp only [i128Max]; omega)
  unfold Lit.tryFrom allConsuming
  rw [intConst_head h t ht, map_none this]
  rfl

theorem intConst_0x1F : IntConst c!"0x1F" 31 :=
  .hex (.inl rfl) (ds := [1, 15]) (.cons ⟨by decide, .inl (by decide)⟩
    (.cons ⟨by decide, .inr (by decide)⟩ .nil)) (by decide)
theorem intConst_017 : IntConst c!"017" 15 :=
  .oct (ds := [1, 7]) (.cons ⟨by decide, .inl (by decide)⟩
    (.cons ⟨by decide, .inl (by decide)⟩ .nil))
theorem intConst_42 : IntConst c!"42" 42 :=
  .dec (ds := [4, 2]) (.cons ⟨by decide, .inl (by decide)⟩
    (.cons ⟨by decide, .inl (by decide)⟩ .nil)) (by decide) (by decide)
/-- 2^127 in hexadecimal. -/
theorem intConst_big : IntConst c!"0x80000000000000000000000000000000" (2 ^ 127) :=
  .hex (.inl rfl) (ds := 8 :: List.replicate 31 0) (.cons ⟨by decide, .inl (by decide)⟩ (by
    repeat first | exact .nil | refine .cons ⟨by decide, .inl (by decide)⟩ ?_)) (by decide)

example : ∃ i : LitInt, Lit.tryFrom c!"0x1FuLL" = some (.int i) ∧ i.value.toInt = 31 ∧
    i.suffix = some .uLongLong :=
  C24_value c!"0x1F" c!"uLL" _ _ intConst_0x1F (by decide) (by decide)
example : ∃ i : LitInt, Lit.tryFrom c!"017" = some (.int i) ∧ i.value.toInt = 15 ∧
    i.suffix = none :=
  C24_value c!"017" c!"" _ _ intConst_017 (by decide) (by decide)
example : Lit.tryFrom c!"0x80000000000000000000000000000000" = none :=
  C24_overflow_rejected _ [] _ intConst_big (Nat.le_refl _) numEnd_nil.spec
example : Lit.tryFrom c!"42lL" = none := by
  cases h : Lit.tryFrom c!"42lL" with
  | none => rfl
  | some l =>
    obtain ⟨ty, h1, -⟩ := (C25_suffixes_exact c!"42" c!"lL" _ intConst_42 (by decide)
      (NumEnd.spec (by intro c r h; simp only [List.cons.injEq] at h; rw [← h.1]; decide)) l).1 h
    have key : ∀ p ∈ Spec.intSuffixes, p.1 ≠ c!"lL" := by decide
    exact absurd rfl (key _ h1)

/-! ## C50 -/

/-- **C50**, the full statement: a token that starts with `0` and goes on with decimal digits of
which one is 8 or 9 is no integer constant of C, so it is rejected. -/
def C50_statement : Prop :=
  ∀ (ds : List Nat) (s : Str), Digits 10 ds s → (8 ∈ ds ∨ 9 ∈ ds) → Lit.tryFrom ('0' :: s) = none

/-- **C50** is false of the code: `08` is accepted, with value 8. -/
theorem C50_false : ¬ C50_statement := by
  intro h
  have := h [8] c!"8" (.cons ⟨by decide, .inl (by decide)⟩ .nil) (by decide)
  rw [show Lit.tryFrom c!"08" = some (.int ⟨8, none⟩) from by decide +kernel] at this
  simp at this

/-- **C50**, what holds: it is rejected when an octal digit follows the zero (and the octal
digits before the first 8 or 9 do not overflow). Missing: `0` directly followed by 8 or 9. -/
theorem C50_bad_octal_rejected_partial (ds es : List Nat) (s t : Str) (c : Char)
    (h : Digits 8 ds s) (hne : s ≠ []) (hv : positional 8 ds < 2 ^ 127) (hc : c = '8' ∨ c = '9')
    (ht : Digits 10 es t) : Lit.tryFrom ('0' :: s ++ c :: t) = none := by
  have hd10 : Digits 10 (0 :: ds) ('0' :: s) :=
    .cons ⟨by decide, .inl (by decide)⟩ (Digits.mono (by decide) h)
  have hct : Digits 10 ((c.toNat - 48) :: es) (c :: t) :=
    .cons (by rcases hc with rfl | rfl <;> exact ⟨by decide, .inl (by decide)⟩) ht
  have hall := Digits.append hd10 hct
  have hf : LitFloat.parseStr (('0' :: s ++ c :: t) ++ []) = none :=
    float_none (Digits.isDigit hall) (by simp) (by intro c r h; simp at h)
      (by intro c r h; simp at h)
  rw [List.append_nil] at hf
  have hto : NoStart (isDigit 8) (c :: t) := by
    intro x r hx
    simp only [List.cons.injEq] at hx
    rw [← hx.1]
    rcases hc with rfl | rfl <;> decide
  have hhead : ∀ k : Char, 57 < k.toNat → k.toLower = k → 97 ≤ k.toNat →
      tagNoCase ['0', k] ('0' :: (s ++ c :: t)) = none := by
    intro k hk hl h97
    cases h with
    | nil => exact absurd rfl hne
    | @cons d ds c s hd _ =>
      have := hd.1
      have := hd.2
      refine tagNoCase_second hl ?_ ?_
      · rintro rfl; omega
      · omega
  have h1 : preceded (tagNoCase c!"0x") (takeWhile1 (isDigit 16)) ('0' :: (s ++ c :: t)) = none :=
    preceded_none (hhead 'x' (by decide) (by decide) (by decide))
  have h2 : preceded (tagNoCase c!"0b") (takeWhile1 fun c => c == '0' || c == '1')
      ('0' :: (s ++ c :: t)) = none :=
    preceded_none (hhead 'b' (by decide) (by decide) (by decide))
  have h3 : preceded (tag c!"0") (takeWhile1 (isDigit 8)) ('0' :: (s ++ c :: t)) = some (s, c :: t) :=
    preceded_some (a := ()) (r := s ++ c :: t) (by simp [tag])
      (takeWhile1_run (Digits.isDigit h) hne hto)
  have hd : intDigits ('0' :: (s ++ c :: t)) = some (positional 8 ds, c :: t) := by
    rw [intDigits, or_right (mapOpt_none' h1), or_right (mapOpt_none' h2)]
    exact or_left (mapOpt_some h3 (by
      rw [parseI128_eq (by decide) h, if_pos (by simp only [i128Max]; omega)]))
  have hi : LitInt.parseStr ('0' :: (s ++ c :: t)) = none := by
    refine map_none (seq_none' hd ?_)
    cases hs : intSuffix (c :: t) with
    | none => rfl
    | some y =>
      obtain ⟨y, r'⟩ := y
      have := intSuffix_head (intSuffix_inv hs).2 c t rfl
      rcases hc with rfl | rfl <;> simp at this
  unfold Lit.tryFrom allConsuming
  rw [List.cons_append] at hf ⊢
  rw [lit_digit_head (by decide), or_right (map_none hf), map_none hi]
  rfl

example : Lit.tryFrom c!"018" = none :=
  C50_bad_octal_rejected_partial [1] [] c!"1" c!"" '8'
    (.cons ⟨by decide, .inl (by decide)⟩ .nil) (by decide) (by decide) (.inl rfl) .nil

end CMacro
