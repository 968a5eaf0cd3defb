import Verif.Proofs.Ident

/-! # Integer literals -/

namespace CMacro
open Parser Spec

theorem toLower_toNat (c : Char) :
    c.toLower.toNat = if 65 ≤ c.toNat ∧ c.toNat ≤ 90 then c.toNat + 32 else c.toNat := by
  unfold Char.toLower
  have h1 : c.val ≥ 'A'.val ↔ 65 ≤ c.toNat := by rw [ge_iff_le, UInt32.le_iff_toNat_le]; rfl
  have h2 : c.val ≤ 'Z'.val ↔ c.toNat ≤ 90 := by rw [UInt32.le_iff_toNat_le]; rfl
  split
  · rename_i h
    rw [if_pos ⟨h1.1 h.1, h2.1 h.2⟩]
    have hle := h2.1 h.2
    show (c.val + ('a'.val - 'A'.val)).toNat = _
    rw [UInt32.toNat_add]
    have : c.val.toNat = c.toNat := rfl
    rw [this]
    have h32 : ('a'.val - 'A'.val).toNat = 32 := by decide
    rw [h32]
    omega
  · rename_i h
    rw [if_neg]
    rintro ⟨ha, hb⟩
    exact h ⟨h1.2 ha, h2.2 hb⟩

theorem char_eq_of_toNat {c d : Char} (h : c.toNat = d.toNat) : c = d := Char.toNat_inj.1 h

/-- The characters that match a letter or digit in either case. -/
theorem toLower_eq_iff {c k : Char} (hk : k.toLower = k) :
    k.toLower = c.toLower ↔ c = k ∨ (97 ≤ k.toNat ∧ k.toNat ≤ 122 ∧ c.toNat + 32 = k.toNat) := by
  rw [hk, ← Char.toNat_inj, toLower_toNat, ← Char.toNat_inj]
  have h := congrArg Char.toNat hk
  rw [toLower_toNat] at h
  split at h
  · omega
  · split <;> omega

/-! ## Values -/

theorem parseI128Go_eq {base : Nat} (hb : 1 ≤ base) {ds : List Nat} {s : Str}
    (h : Digits base ds s) : ∀ v, v ≤ i128Max → parseI128Go base s v =
      if v * base ^ ds.length + positional base ds ≤ i128Max then
        some (v * base ^ ds.length + positional base ds) else none := by
  induction h with
  | nil => intro v hv; simp [parseI128Go, positional, hv]
  | @cons d ds c s hd hds ih =>
    intro v hv
    have hpow : 1 ≤ base ^ ds.length := Nat.one_le_pow _ _ hb
    have heq : v * base ^ (d :: ds).length + positional base (d :: ds) =
        (v * base + d) * base ^ ds.length + positional base ds := by
      simp only [positional, List.length_cons, Nat.pow_succ]
      rw [Nat.add_mul, Nat.mul_assoc, Nat.mul_comm base, Nat.add_assoc]
    have hge : v * base + d ≤ (v * base + d) * base ^ ds.length :=
      Nat.le_mul_of_pos_right _ hpow
    rw [heq]
    simp only [parseI128Go, toDigit_eq_some.2 hd]
    split
    · split
      · rename_i h2
        exact ih _ h2
      · rw [if_neg (by omega)]
    · rw [if_neg (by omega)]

theorem parseI128_eq {base : Nat} (hb : 1 ≤ base) {ds : List Nat} {s : Str}
    (h : Digits base ds s) : parseI128 base s =
      if positional base ds ≤ i128Max then some (positional base ds) else none := by
  have := parseI128Go_eq hb h 0 (by simp)
  simpa [parseI128] using this

theorem positional_le_of_base {b b' : Nat} (h : b ≤ b') (ds : List Nat) :
    positional b ds ≤ positional b' ds := by
  induction ds with
  | nil => simp [positional]
  | cons d ds ih =>
    simp only [positional]
    exact Nat.add_le_add (Nat.mul_le_mul_left _ (Nat.pow_le_pow_left h _)) ih

/-- `t` does not start with a character satisfying `f`. -/
def NoStart (f : Char → Bool) (t : Str) : Prop := ∀ c r, t = c :: r → f c = false

theorem takeWhile1_run {f : Char → Bool} {s t : Str} (hs : ∀ c ∈ s, f c = true) (hne : s ≠ [])
    (ht : NoStart f t) : takeWhile1 f (s ++ t) = some (s, t) := by
  have h1 : ∀ s : Str, (∀ c ∈ s, f c = true) → (s ++ t).takeWhile f = s := by
    intro s
    induction s with
    | nil =>
      intro _
      cases t with
      | nil => rfl
      | cons c r => simp [List.takeWhile_cons, ht c r rfl]
    | cons a s ih =>
      intro h
      simp [List.takeWhile_cons, h a List.mem_cons_self,
        ih (fun x hx => h x (List.mem_cons_of_mem _ hx))]
  have h2 : ∀ s : Str, (∀ c ∈ s, f c = true) → (s ++ t).dropWhile f = t := by
    intro s
    induction s with
    | nil =>
      intro _
      cases t with
      | nil => rfl
      | cons c r => simp [List.dropWhile_cons, ht c r rfl]
    | cons a s ih =>
      intro h
      simp [List.dropWhile_cons, h a List.mem_cons_self,
        ih (fun x hx => h x (List.mem_cons_of_mem _ hx))]
  simp [takeWhile1, h1 s hs, h2 s hs, hne]

theorem takeWhile1_stop {f : Char → Bool} {t : Str} (ht : NoStart f t) : takeWhile1 f t = none := by
  cases t with
  | nil => simp [takeWhile1]
  | cons c r => simp [takeWhile1, List.takeWhile_cons, ht c r rfl]

theorem tagNoCase_single {k : Char} (hk : k.toLower = k) {i r : Str} {u : Unit} :
    tagNoCase [k] i = some (u, r) ↔ ∃ c, i = c :: r ∧
      (c = k ∨ (97 ≤ k.toNat ∧ k.toNat ≤ 122 ∧ c.toNat + 32 = k.toNat)) := by
  cases i with
  | nil => simp [tagNoCase]
  | cons c i =>
    simp only [tagNoCase, List.cons.injEq]
    split
    · rename_i h
      rw [toLower_eq_iff hk] at h
      simp only [Option.some.injEq, Prod.mk.injEq, true_and]
      exact ⟨fun hi => ⟨c, ⟨rfl, hi⟩, h⟩, fun ⟨_, hi, _⟩ => hi.2⟩
    · rename_i h
      rw [toLower_eq_iff hk] at h
      simp only [reduceCtorEq, false_iff]
      rintro ⟨d, ⟨rfl, _⟩, hd⟩
      exact h hd

theorem digit10_ne {c : Char} (h : isDigit 10 c = true) {n : Nat} (hn : n < 48 ∨ 57 < n) :
    c.toNat ≠ n := by
  obtain ⟨d, h1, h2⟩ := isDigit_iff.1 h
  omega

/-- The first character does not match `0x`, `0b`. -/
theorem tagNoCase_zero {c k : Char} {r : Str} (hc : c ≠ '0') : tagNoCase ['0', k] (c :: r) = none := by
  simp only [tagNoCase]
  rw [if_neg]
  rw [toLower_eq_iff (by decide)]
  rintro (h | h)
  · exact hc h
  · have := h.1; revert this; decide

theorem tagNoCase_second {c k : Char} (hk : k.toLower = k) {r : Str} (hc : c ≠ k)
    (hc' : c.toNat + 32 ≠ k.toNat) : tagNoCase ['0', k] ('0' :: c :: r) = none := by
  simp only [tagNoCase, if_true]
  rw [if_neg]
  rw [toLower_eq_iff hk]
  rintro (h | h)
  · exact hc h
  · exact hc' h.2.2

theorem tagNoCase_nil_second {k : Char} : tagNoCase ['0', k] ['0'] = none := by
  simp [tagNoCase]

/-! ## The digits of an integer literal -/

theorem intDigits_dec {ds : List Nat} {s t : Str} (h : Digits 10 ds s) (hne : s ≠ [])
    (hz : s.head? ≠ some '0') (ht : NoStart (isDigit 10) t) :
    intDigits (s ++ t) = if positional 10 ds ≤ i128Max then some (positional 10 ds, t) else none := by
  cases s with
  | nil => exact absurd rfl hne
  | cons c s =>
    have hc : c ≠ '0' := by simpa using hz
    have h1 : preceded (tagNoCase c!"0x") (takeWhile1 (isDigit 16)) (c :: (s ++ t)) = none :=
      preceded_none (tagNoCase_zero hc)
    have h2 : preceded (tagNoCase c!"0b") (takeWhile1 fun c => c == '0' || c == '1')
        (c :: (s ++ t)) = none := preceded_none (tagNoCase_zero hc)
    have h3 : preceded (tag c!"0") (takeWhile1 (isDigit 8)) (c :: (s ++ t)) = none :=
      preceded_none (by simp [tag, Ne.symm hc])
    have h4 := takeWhile1_run (Digits.isDigit h) hne ht
    rw [List.cons_append] at h4 ⊢
    rw [intDigits, or_right (mapOpt_none' h1), or_right (mapOpt_none' h2),
      or_right (mapOpt_none' h3)]
    simp only [mapOpt, h4, parseI128_eq (by decide) h]
    split
    · rename_i h5; split at h5
      · rename_i h6
        simp only [Option.some.injEq] at h5
        rw [if_pos h6, h5]
      · simp at h5
    · rename_i h5; split at h5
      · simp at h5
      · rename_i h6; rw [if_neg h6]

/-- A lone zero. -/
theorem intDigits_zero {t : Str} (ht : NoStart (isDigit 10) t)
    (hx : ∀ c r, t = c :: r → c ≠ 'x' ∧ c ≠ 'X' ∧ c ≠ 'b' ∧ c ≠ 'B') :
    intDigits ('0' :: t) = some (0, t) := by
  have hto : NoStart (isDigit 8) t := by
    intro c r hcr
    cases hd : isDigit 8 c with
    | false => rfl
    | true =>
      obtain ⟨d, h1, h2⟩ := isDigit_iff.1 hd
      have := isDigit_iff.2 ⟨d, (⟨by omega, h2⟩ : Digit 10 d c)⟩
      rw [ht c r hcr] at this
      simp at this
  have htag : ∀ k : Char, k.toLower = k → (∀ c r, t = c :: r → c ≠ k ∧ c.toNat + 32 ≠ k.toNat) →
      tagNoCase ['0', k] ('0' :: t) = none := by
    intro k hk h
    cases t with
    | nil => exact tagNoCase_nil_second
    | cons c r => exact tagNoCase_second hk (h c r rfl).1 (h c r rfl).2
  have h1 : preceded (tagNoCase c!"0x") (takeWhile1 (isDigit 16)) ('0' :: t) = none :=
    preceded_none (htag 'x' (by decide) (fun c r hcr => ⟨(hx c r hcr).1, fun h =>
      (hx c r hcr).2.1 (char_eq_of_toNat (by simpa using h))⟩))
  have h2 : preceded (tagNoCase c!"0b") (takeWhile1 fun c => c == '0' || c == '1')
      ('0' :: t) = none :=
    preceded_none (htag 'b' (by decide) (fun c r hcr => ⟨(hx c r hcr).2.2.1, fun h =>
      (hx c r hcr).2.2.2 (char_eq_of_toNat (by simpa using h))⟩))
  have h3 : preceded (tag c!"0") (takeWhile1 (isDigit 8)) ('0' :: t) = none :=
    preceded_none' (a := ()) (r := t) (by simp [tag]) (takeWhile1_stop hto)
  have h4 : takeWhile1 (isDigit 10) (c!"0" ++ t) = some (c!"0", t) :=
    takeWhile1_run (by simp; decide) (by simp) ht
  rw [intDigits, or_right (mapOpt_none' h1), or_right (mapOpt_none' h2),
    or_right (mapOpt_none' h3)]
  exact mapOpt_some h4 (by decide)

theorem intDigits_hex {ds : List Nat} {s t : Str} {x : Char} (hx : x = 'x' ∨ x = 'X')
    (h : Digits 16 ds s) (hne : s ≠ []) (ht : NoStart (isDigit 16) t) :
    intDigits ('0' :: x :: s ++ t) =
      if positional 16 ds ≤ i128Max then some (positional 16 ds, t)
      else some (0, x :: s ++ t) := by
  have htag : tagNoCase c!"0x" ('0' :: x :: (s ++ t)) = some ((), s ++ t) := by
    rcases hx with rfl | rfl <;> simp [tagNoCase] <;> decide
  have h1 := preceded_some htag (takeWhile1_run (Digits.isDigit h) hne ht)
  rw [List.cons_append, List.cons_append]
  split
  · rename_i hle
    rw [intDigits]
    exact or_left (mapOpt_some h1 (by rw [parseI128_eq (by decide) h, if_pos hle]))
  · rename_i hle
    have h2 : preceded (tagNoCase c!"0b") (takeWhile1 fun c => c == '0' || c == '1')
        ('0' :: x :: (s ++ t)) = none :=
      preceded_none (tagNoCase_second (by decide) (by rcases hx with rfl | rfl <;> decide)
        (by rcases hx with rfl | rfl <;> decide))
    have hxd : ∀ b, b ≤ 10 → isDigit b x = false := by
      intro b hb
      cases hd : isDigit b x with
      | false => rfl
      | true =>
        obtain ⟨d, h1, h2⟩ := isDigit_iff.1 hd
        rcases hx with rfl | rfl <;> simp at h2 <;> omega
    have h3 : preceded (tag c!"0") (takeWhile1 (isDigit 8)) ('0' :: x :: (s ++ t)) = none :=
      preceded_none' (a := ()) (r := x :: (s ++ t)) (by simp [tag]) (takeWhile1_stop (by
        intro c r hcr
        simp only [List.cons.injEq] at hcr
        exact hcr.1 ▸ hxd 8 (by omega)))
    have h4 : takeWhile1 (isDigit 10) (c!"0" ++ (x :: (s ++ t))) = some (c!"0", x :: (s ++ t)) :=
      takeWhile1_run (by simp; decide) (by simp) (by
        intro c r hcr
        simp only [List.cons.injEq] at hcr
        exact hcr.1 ▸ hxd 10 (by omega))
    rw [intDigits, or_right (mapOpt_none h1 (by rw [parseI128_eq (by decide) h, if_neg hle])),
      or_right (mapOpt_none' h2), or_right (mapOpt_none' h3)]
    exact mapOpt_some h4 (by decide)

theorem intDigits_bin {ds : List Nat} {s t : Str} {x : Char} (hx : x = 'b' ∨ x = 'B')
    (h : Digits 2 ds s) (hne : s ≠ []) (ht : NoStart (isDigit 2) t) :
    intDigits ('0' :: x :: s ++ t) =
      if positional 2 ds ≤ i128Max then some (positional 2 ds, t)
      else some (0, x :: s ++ t) := by
  have htag : tagNoCase c!"0b" ('0' :: x :: (s ++ t)) = some ((), s ++ t) := by
    rcases hx with rfl | rfl <;> simp [tagNoCase] <;> decide
  have hbin : (fun c : Char => c == '0' || c == '1') = isDigit 2 := by
    funext c
    rw [Bool.eq_iff_iff, isDigit_iff]
    simp only [Bool.or_eq_true, beq_iff_eq, Digit]
    constructor
    · rintro (rfl | rfl)
      · exact ⟨0, by decide⟩
      · exact ⟨1, by decide⟩
    · rintro ⟨d, h1, h2⟩
      have : d = 0 ∨ d = 1 := by omega
      rcases this with rfl | rfl
      · exact .inl (char_eq_of_toNat (by simpa using h2))
      · exact .inr (char_eq_of_toNat (by simpa using h2))
  have h0 : preceded (tagNoCase c!"0x") (takeWhile1 (isDigit 16)) ('0' :: x :: (s ++ t)) = none :=
    preceded_none (tagNoCase_second (by decide) (by rcases hx with rfl | rfl <;> decide)
      (by rcases hx with rfl | rfl <;> decide))
  have h1 : preceded (tagNoCase c!"0b") (takeWhile1 fun c => c == '0' || c == '1')
      ('0' :: x :: (s ++ t)) = some (s, t) := by
    rw [hbin]
    exact preceded_some htag (takeWhile1_run (Digits.isDigit h) hne ht)
  rw [List.cons_append, List.cons_append]
  split
  · rename_i hle
    rw [intDigits, or_right (mapOpt_none' h0)]
    exact or_left (mapOpt_some h1 (by rw [parseI128_eq (by decide) h, if_pos hle]))
  · rename_i hle
    have hxd : ∀ b, b ≤ 10 → isDigit b x = false := by
      intro b hb
      cases hd : isDigit b x with
      | false => rfl
      | true =>
        obtain ⟨d, h1, h2⟩ := isDigit_iff.1 hd
        rcases hx with rfl | rfl <;> simp at h2 <;> omega
    have h3 : preceded (tag c!"0") (takeWhile1 (isDigit 8)) ('0' :: x :: (s ++ t)) = none :=
      preceded_none' (a := ()) (r := x :: (s ++ t)) (by simp [tag]) (takeWhile1_stop (by
        intro c r hcr
        simp only [List.cons.injEq] at hcr
        exact hcr.1 ▸ hxd 8 (by omega)))
    have h4 : takeWhile1 (isDigit 10) (c!"0" ++ (x :: (s ++ t))) = some (c!"0", x :: (s ++ t)) :=
      takeWhile1_run (by simp; decide) (by simp) (by
        intro c r hcr
        simp only [List.cons.injEq] at hcr
        exact hcr.1 ▸ hxd 10 (by omega))
    rw [intDigits, or_right (mapOpt_none' h0),
      or_right (mapOpt_none h1 (by rw [parseI128_eq (by decide) h, if_neg hle])),
      or_right (mapOpt_none' h3)]
    exact mapOpt_some h4 (by decide)

theorem intDigits_oct {ds : List Nat} {s t : Str}
    (h : Digits 8 ds s) (hne : s ≠ []) (ht : NoStart (isDigit 10) t) :
    intDigits ('0' :: s ++ t) =
      if positional 8 ds ≤ i128Max then some (positional 8 ds, t) else none := by
  have hto : NoStart (isDigit 8) t := by
    intro c r hcr
    cases hd : isDigit 8 c with
    | false => rfl
    | true =>
      obtain ⟨d, h1, h2⟩ := isDigit_iff.1 hd
      have := isDigit_iff.2 ⟨d, (⟨by omega, h2⟩ : Digit 10 d c)⟩
      rw [ht c r hcr] at this
      simp at this
  have hhead : ∀ k : Char, 57 < k.toNat → k.toLower = k → 97 ≤ k.toNat →
      tagNoCase ['0', k] ('0' :: (s ++ t)) = none := by
    intro k hk hl h97
    cases h with
    | nil => exact absurd rfl hne
    | @cons d ds c s hd _ =>
      have := hd.1
      have := hd.2
      refine tagNoCase_second hl ?_ ?_
      · rintro rfl; omega
      · omega
  have h1 : preceded (tagNoCase c!"0x") (takeWhile1 (isDigit 16)) ('0' :: (s ++ t)) = none :=
    preceded_none (hhead 'x' (by decide) (by decide) (by decide))
  have h2 : preceded (tagNoCase c!"0b") (takeWhile1 fun c => c == '0' || c == '1')
      ('0' :: (s ++ t)) = none :=
    preceded_none (hhead 'b' (by decide) (by decide) (by decide))
  have h3 : preceded (tag c!"0") (takeWhile1 (isDigit 8)) ('0' :: (s ++ t)) = some (s, t) :=
    preceded_some (a := ()) (r := s ++ t) (by simp [tag]) (takeWhile1_run (Digits.isDigit h) hne hto)
  rw [List.cons_append, intDigits, or_right (mapOpt_none' h1), or_right (mapOpt_none' h2)]
  split
  · rename_i hle
    exact or_left (mapOpt_some h3 (by rw [parseI128_eq (by decide) h, if_pos hle]))
  · rename_i hle
    rw [or_right (mapOpt_none h3 (by rw [parseI128_eq (by decide) h, if_neg hle]))]
    have hd10 : Digits 10 (0 :: ds) ('0' :: s) :=
      .cons ⟨by decide, .inl (by decide)⟩ (Digits.mono (by decide) h)
    have h4 := takeWhile1_run (Digits.isDigit hd10) (by simp) ht
    refine mapOpt_none h4 ?_
    rw [parseI128_eq (by decide) hd10, if_neg]
    have := positional_le_of_base (b := 8) (b' := 10) (by decide) ds
    simp only [positional]
    omega

/-! ## Neither character, string nor float -/

theorem lit_digit_head {c : Char} (hc : isDigit 10 c = true) (r : Str) :
    Lit.parseStr (c :: r) = or (map LitFloat.parseStr Lit.float) (map LitInt.parseStr Lit.int)
      (c :: r) := by
  have hne : ∀ k : Char, (k.toNat < 48 ∨ 57 < k.toNat) → k ≠ c := by
    intro k hk h
    exact digit10_ne hc hk (by rw [h])
  have h1 : LitChar.parseStr (c :: r) = none := by
    simp [LitChar.parseStr, mapOpt, seq, opt, charPrefix, Parser.or, Parser.map, tag,
      hne 'u' (by decide), hne 'U' (by decide), hne 'L' (by decide), LitChar.parseUnprefixed,
      delimited, terminated, preceded, hne '\'' (by decide)]
  have h2 : LitString.parseStr (c :: r) = none := by
    simp [LitString.parseStr, parseOrdinary, Parser.or, Parser.map, tag, delimited, terminated,
      preceded, seq, dquote, hne '"' (by decide), hne 'u' (by decide), hne 'U' (by decide),
      hne 'L' (by decide)]
  rw [Lit.parseStr, or_right (map_none h1), or_right (map_none h2)]

theorem float_none {s t : Str} (hs : ∀ c ∈ s, isDigit 10 c = true) (hne : s ≠ [])
    (ht : NoStart (isDigit 10) t) (ht' : NoStart (fun c => c == '.' || c == 'e' || c == 'E') t) :
    LitFloat.parseStr (s ++ t) = none := by
  have h1 : digit1 (s ++ t) = some (s, t) := takeWhile1_run hs hne ht
  have hdec : floatDecimal t = none := by
    refine map_none (seq_none ?_)
    cases t with
    | nil => simp [tag]
    | cons c r =>
      have := ht' c r rfl
      simp only [Bool.or_eq_false_iff, beq_eq_false_iff_ne] at this
      simp [tag, Ne.symm this.1.1]
  have hdot : tag c!"." t = none := by
    cases t with
    | nil => simp [tag]
    | cons c r =>
      have := ht' c r rfl
      simp only [Bool.or_eq_false_iff, beq_eq_false_iff_ne] at this
      simp [tag, Ne.symm this.1.1]
  have hsci : floatScientific t = none := by
    refine map_none (seq_none ?_)
    cases t with
    | nil => simp [satisfy]
    | cons c r =>
      have := ht' c r rfl
      simp only [Bool.or_eq_false_iff, beq_eq_false_iff_ne] at this
      simp [satisfy, this.1.2, this.2]
  have hopt : opt digit1 (s ++ t) = some (some s, t) := by simp [opt, h1]
  have : floatRepr (s ++ t) = none := by
    rw [floatRepr, or_right (map_none (seq_none ?_))]
    · exact map_none (seq_none' h1 hsci)
    · rw [or_right (map_none (seq_none' hopt hdec))]
      exact map_none (seq_none' h1 hdot)
  exact map_none (seq_none this)

/-! ## Suffixes -/

theorem tagNoCase_letter {k K : Char} (hk : k.toLower = k) (hK : K.toNat + 32 = k.toNat)
    {i r : Str} {u : Unit} (h : tagNoCase [k] i = some (u, r)) : i = k :: r ∨ i = K :: r := by
  obtain ⟨c, rfl, h | h⟩ := (tagNoCase_single hk).1 h
  · exact .inl (by rw [h])
  · have : c = K := char_eq_of_toNat (by omega)
    exact .inr (by rw [this])

theorem tag_pair_inv {a b : Char} {i r : Str} {u : Unit} (h : tag [a, b] i = some (u, r)) :
    i = a :: b :: r := by
  match i with
  | [] => simp [tag] at h
  | [c] => simp only [tag] at h; split at h <;> simp at h
  | c :: d :: i =>
    simp only [tag] at h
    split at h
    · split at h
      · rename_i h1 h2
        simp only [Option.some.injEq, Prod.mk.injEq] at h
        rw [h1, h2, h.2]
      · simp at h
    · simp at h

theorem intSizeSuffix_inv {i r : Str} {x : IntSizeSuffix} (h : intSizeSuffix i = some (x, r)) :
    (x = .longLong ∧ (i = 'l' :: 'l' :: r ∨ i = 'L' :: 'L' :: r)) ∨
    (x = .long ∧ (i = 'l' :: r ∨ i = 'L' :: r)) ∨
    (x = .sizeT ∧ (i = 'z' :: r ∨ i = 'Z' :: r)) := by
  unfold intSizeSuffix at h
  rcases or_inv h with h1 | ⟨-, h1⟩ <;> clear h <;> have h := h1 <;> clear h1
  · replace h := map_inv h
    obtain ⟨u, h, rfl⟩ := h
    rcases or_inv h with h1 | ⟨-, h1⟩ <;> clear h <;> have h := h1 <;> clear h1
    · exact .inl ⟨rfl, .inl (tag_pair_inv h)⟩
    · exact .inl ⟨rfl, .inr (tag_pair_inv h)⟩
  · rcases or_inv h with h1 | ⟨-, h1⟩ <;> clear h <;> have h := h1 <;> clear h1
    · replace h := map_inv h
      obtain ⟨u, h, rfl⟩ := h
      exact .inr (.inl ⟨rfl, tagNoCase_letter (K := 'L') (by decide) (by decide) h⟩)
    · replace h := map_inv h
      obtain ⟨u, h, rfl⟩ := h
      exact .inr (.inr ⟨rfl, tagNoCase_letter (K := 'Z') (by decide) (by decide) h⟩)

theorem intSuffix_inv {t r : Str} {x : Bool × Option IntSizeSuffix}
    (h : intSuffix t = some (x, r)) : r = [] ∧ (t, intSuffixType x) ∈ Spec.intSuffixes := by
  unfold intSuffix at h
  replace h := allConsuming_inv h
  obtain ⟨h, rfl⟩ := h
  refine ⟨rfl, ?_⟩
  rcases or_inv h with h1 | ⟨-, h1⟩ <;> clear h <;> have h := h1 <;> clear h1
  · replace h := map_inv h
    obtain ⟨⟨u, sz⟩, h, rfl⟩ := h
    obtain ⟨r', h1, h2⟩ := seq_inv h
    have hu := tagNoCase_letter (K := 'U') (by decide) (by decide) h1
    rcases opt_inv h2 with ⟨h3, h4, _⟩ | ⟨a, h3, h4⟩
    · simp only at h3
      subst h3 h4
      rcases hu with rfl | rfl <;> simp [intSuffixType, intSuffixes]
    · simp only at h3
      subst h3
      rcases intSizeSuffix_inv h4 with ⟨rfl, hs⟩ | ⟨rfl, hs⟩ | ⟨rfl, hs⟩ <;>
      rcases hs with rfl | rfl <;> rcases hu with rfl | rfl <;> simp [intSuffixType, intSuffixes]
  · rcases or_inv h with h1 | ⟨-, h1⟩ <;> clear h <;> have h := h1 <;> clear h1
    · replace h := map_inv h
      obtain ⟨⟨sz, u⟩, h, rfl⟩ := h
      obtain ⟨r', h1, h2⟩ := seq_inv h
      rcases opt_inv h2 with ⟨h3, h4, _⟩ | ⟨a, h3, h4⟩
      · simp only at h3 h1
        subst h3 h4
        rcases intSizeSuffix_inv h1 with ⟨rfl, hs⟩ | ⟨rfl, hs⟩ | ⟨rfl, hs⟩ <;>
        rcases hs with rfl | rfl <;> simp [intSuffixType, intSuffixes]
      · simp only at h3 h1
        subst h3
        have hu := tagNoCase_letter (K := 'U') (by decide) (by decide) h4
        rcases intSizeSuffix_inv h1 with ⟨rfl, hs⟩ | ⟨rfl, hs⟩ | ⟨rfl, hs⟩ <;>
        rcases hs with rfl | rfl <;> rcases hu with rfl | rfl <;> simp [intSuffixType, intSuffixes]
    · replace h := map_inv h
      obtain ⟨u, h, rfl⟩ := h
      unfold eof at h
      split at h
      · rename_i he
        have : t = [] := by simpa using he
        subst this
        decide
      · simp at h

theorem intSuffix_of_mem {t : Str} {ty : Option BuiltInType} (h : (t, ty) ∈ Spec.intSuffixes) :
    (intSuffix t).map (fun x => intSuffixType x.1) = some ty := by
  have key : ∀ p ∈ Spec.intSuffixes, (intSuffix p.1).map (fun x => intSuffixType x.1) = some p.2 := by
    decide +kernel
  exact key _ h

theorem intSuffix_some {t : Str} {ty : Option BuiltInType} (h : (t, ty) ∈ Spec.intSuffixes) :
    ∃ x, intSuffix t = some (x, []) ∧ intSuffixType x = ty := by
  have := intSuffix_of_mem h
  cases hs : intSuffix t with
  | none => rw [hs] at this; simp at this
  | some y =>
    obtain ⟨x, r⟩ := y
    rw [hs] at this
    simp only [Option.map_some, Option.some.injEq] at this
    exact ⟨x, by rw [(intSuffix_inv hs).1], this⟩

theorem intSuffix_head {t : Str} {ty : Option BuiltInType} (h : (t, ty) ∈ Spec.intSuffixes) :
    ∀ c r, t = c :: r → c ∈ c!"uUlLzZ" := by
  have key : ∀ p ∈ Spec.intSuffixes, ∀ c ∈ p.1.head?, c ∈ c!"uUlLzZ" := by decide +kernel
  intro c r hcr
  exact key _ h c (by simp [hcr])

/-- From digits to the literal: `intDigits` reads `s`, the rest is the suffix. -/
theorem litInt_of_digits {s t : Str} {v : Nat} {ty : Option BuiltInType}
    (h : intDigits (s ++ t) = some (v, t)) (ht : (t, ty) ∈ Spec.intSuffixes) :
    LitInt.parseStr (s ++ t) = some (⟨BitVec.ofNat 128 v, ty⟩, []) := by
  obtain ⟨x, hx, rfl⟩ := intSuffix_some ht
  exact map_some (seq_some h hx)

theorem litInt_inv {s t : Str} {v : Nat} {i : LitInt} {r : Str}
    (h : intDigits (s ++ t) = some (v, t)) (hl : LitInt.parseStr (s ++ t) = some (i, r)) :
    i.value = BitVec.ofNat 128 v ∧ (t, i.suffix) ∈ Spec.intSuffixes := by
  obtain ⟨⟨v', x⟩, h1, rfl⟩ := map_inv hl
  obtain ⟨r', h2, h3⟩ := seq_inv h1
  rw [h] at h2
  simp only [Option.some.injEq, Prod.mk.injEq] at h2
  obtain ⟨rfl, rfl⟩ := h2
  exact ⟨rfl, (intSuffix_inv h3).2⟩

end CMacro
