import Verif.Props.Numbers
import Verif.Props.ReadText

/-!
# Property C103: exactly which integer literals are read, and as what
-/

namespace CMacro
open Parser
open Spec (Digits Digit positional IntConst)

/-- `s` is read as the number `n`: an integer constant of C (with binary ones), or a `0` and
decimal digits of which the first is 8 or 9, read in base ten. -/
inductive Spec.IntRead : Str → Nat → Prop
  | const {s n} : IntConst s n → IntRead s n
  | zeros {c s ds} : c = '8' ∨ c = '9' → Digits 10 ds (c :: s) →
      IntRead ('0' :: c :: s) (positional 10 ds)

theorem digits_of_all {base : Nat} : ∀ {s : Str}, (∀ c ∈ s, isDigit base c = true) →
    ∃ ds, Digits base ds s := by
  intro s
  induction s with
  | nil => intro _; exact ⟨[], .nil⟩
  | cons c s ih =>
    intro h
    obtain ⟨d, hd⟩ := isDigit_iff.1 (h c List.mem_cons_self)
    obtain ⟨ds, hds⟩ := ih (fun x hx => h x (List.mem_cons_of_mem _ hx))
    exact ⟨d :: ds, .cons hd hds⟩

theorem takeWhile1_inv_ne {f : Char → Bool} {i r s : Str} (h : takeWhile1 f i = some (s, r)) :
    s ≠ [] := by
  unfold takeWhile1 at h
  split at h
  · simp at h
  · rename_i hne
    simp only [Option.some.injEq, Prod.mk.injEq] at h
    rw [← h.1]
    intro e
    rw [e] at hne
    simp at hne

theorem dropWhile_noStart {f : Char → Bool} : ∀ (l : Str) (c : Char) (r : Str),
    l.dropWhile f = c :: r → f c = false := by
  intro l
  induction l with
  | nil => intro c r h; simp at h
  | cons x l ih =>
    intro c r h
    rw [List.dropWhile_cons] at h
    split at h
    · exact ih c r h
    · rename_i hx
      simp only [List.cons.injEq] at h
      rw [← h.1]
      simpa using hx

theorem takeWhile1_rest {f : Char → Bool} {i r s : Str} (h : takeWhile1 f i = some (s, r)) :
    NoStart f r := by
  unfold takeWhile1 at h
  split at h
  · simp at h
  · simp only [Option.some.injEq, Prod.mk.injEq] at h
    rw [← h.2]
    exact fun c r' hc => dropWhile_noStart _ c r' hc

theorem tag0_pair {k : Char} (hk : k.toLower = k) {i r : Str} {u : Unit}
    (h : tagNoCase ['0', k] i = some (u, r)) :
    ∃ x, i = '0' :: x :: r ∧ (x = k ∨ (97 ≤ k.toNat ∧ k.toNat ≤ 122 ∧ x.toNat + 32 = k.toNat)) := by
  cases i with
  | nil => simp [tagNoCase] at h
  | cons c i =>
    by_cases hc : c = '0'
    · subst hc
      have h' : tagNoCase [k] i = some (u, r) := by
        simpa only [tagNoCase, if_true] using h
      obtain ⟨x, rfl, hx⟩ := (tagNoCase_single hk).1 h'
      exact ⟨x, rfl, hx⟩
    · rw [tagNoCase_zero hc] at h
      simp at h

theorem positional_prefix (b : Nat) (ds es : List Nat) (hb : 1 ≤ b) :
    positional b ds ≤ positional b (ds ++ es) := by
  induction ds with
  | nil => simp [positional]
  | cons d ds ih =>
    simp only [List.cons_append, positional]
    refine Nat.add_le_add (Nat.mul_le_mul_left _ (Nat.pow_le_pow_right hb ?_)) ih
    simp

theorem binDigit_is {c : Char} (h : (c == '0' || c == '1') = true) : isDigit 2 c = true := by
  simp only [Bool.or_eq_true, beq_iff_eq] at h
  rcases h with rfl | rfl <;> decide

theorem intDigits_inv {i r : Str} {v : Nat} (h : intDigits i = some (v, r)) :
    ∃ s, i = s ++ r ∧ Spec.IntRead s v ∧ v < 2 ^ 127 := by
  have val : ∀ {base : Nat} {s : Str} {v : Nat} {ds : List Nat}, 1 ≤ base → Digits base ds s →
      parseI128 base s = some v → v = positional base ds ∧ v < 2 ^ 127 := by
    intro base s v ds hb hd hp
    rw [parseI128_eq hb hd] at hp
    split at hp
    · rename_i hle
      simp only [Option.some.injEq] at hp
      subst hp
      simp only [i128Max] at hle
      exact ⟨rfl, by omega⟩
    · simp at hp
  rcases or_inv h with h | ⟨-, h⟩
  · obtain ⟨s, h1, h2⟩ := mapOpt_inv h
    obtain ⟨_, j, h3, h4⟩ := preceded_inv h1
    obtain ⟨x, rfl, hx⟩ := tag0_pair (by decide) h3
    obtain ⟨rfl, h5⟩ := takeWhile1_inv h4
    obtain ⟨ds, hd⟩ := digits_of_all h5
    obtain ⟨rfl, hv⟩ := val (by decide) hd h2
    refine ⟨'0' :: x :: s, rfl, .const (.hex ?_ hd (takeWhile1_inv_ne h4)), hv⟩
    rcases hx with hx | ⟨-, -, hx⟩
    · exact .inl hx
    · exact .inr (char_eq_of_toNat (by have : 'x'.toNat = 120 := rfl; have : 'X'.toNat = 88 := rfl; omega))
  · rcases or_inv h with h | ⟨-, h⟩
    · obtain ⟨s, h1, h2⟩ := mapOpt_inv h
      obtain ⟨_, j, h3, h4⟩ := preceded_inv h1
      obtain ⟨x, rfl, hx⟩ := tag0_pair (by decide) h3
      obtain ⟨rfl, h5⟩ := takeWhile1_inv h4
      obtain ⟨ds, hd⟩ := digits_of_all (fun c hc => binDigit_is (h5 c hc))
      obtain ⟨rfl, hv⟩ := val (by decide) hd h2
      refine ⟨'0' :: x :: s, rfl, .const (.bin ?_ hd (takeWhile1_inv_ne h4)), hv⟩
      rcases hx with hx | ⟨-, -, hx⟩
      · exact .inl hx
      · exact .inr (char_eq_of_toNat (by have : 'b'.toNat = 98 := rfl; have : 'B'.toNat = 66 := rfl; omega))
    · rcases or_inv h with h | ⟨hoct, h⟩
      · obtain ⟨s, h1, h2⟩ := mapOpt_inv h
        obtain ⟨_, j, h3, h4⟩ := preceded_inv h1
        rw [tag_one h3]
        obtain ⟨rfl, h5⟩ := takeWhile1_inv h4
        obtain ⟨ds, hd⟩ := digits_of_all h5
        obtain ⟨rfl, hv⟩ := val (by decide) hd h2
        exact ⟨'0' :: s, rfl, .const (.oct hd), hv⟩
      · obtain ⟨s, h1, h2⟩ := mapOpt_inv h
        obtain ⟨rfl, h5⟩ := takeWhile1_inv h1
        obtain ⟨ds, hd⟩ := digits_of_all h5
        have hne := takeWhile1_inv_ne h1
        obtain ⟨hveq, hv⟩ := val (by decide) hd h2
        refine ⟨s, rfl, ?_, hv⟩
        by_cases hz : s.head? = some '0'
        · cases hd with
          | nil => simp at hz
          | @cons d ds c s hdc hds =>
            have hc : c = '0' := by simpa using hz
            subst hc
            have hd0 : d = 0 := by
              have := hdc.2
              have : '0'.toNat = 48 := rfl
              omega
            subst hd0
            have hpos : positional 10 (0 :: ds) = positional 10 ds := by simp [positional]
            rw [hpos] at hveq
            cases hds with
            | nil =>
              rw [hveq]
              exact .const (.oct (ds := []) .nil)
            | @cons d ds c s hdc' hds =>
              by_cases ho : isDigit 8 c = true
              · exfalso
                obtain ⟨p, q, hpq, hp, hq, hpne⟩ : ∃ p q, c :: s = p ++ q ∧
                    (∀ x ∈ p, isDigit 8 x = true) ∧ NoStart (isDigit 8) q ∧ p ≠ [] :=
                  ⟨_, _, (List.takeWhile_append_dropWhile (p := isDigit 8) (l := c :: s)).symm,
                    fun x hx => List.all_eq_true.1 List.all_takeWhile x hx,
                    fun x r hx => dropWhile_noStart _ _ _ hx,
                    by simp [List.takeWhile_cons, ho]⟩
                have hr : NoStart (isDigit 10) r := takeWhile1_rest h1
                have hqr : NoStart (isDigit 8) (q ++ r) := by
                  intro x r' hx
                  cases q with
                  | nil =>
                    cases h8 : isDigit 8 x with
                    | false => rfl
                    | true =>
                      obtain ⟨d, h6, h7⟩ := isDigit_iff.1 h8
                      have := isDigit_iff.2 ⟨d, (⟨by omega, h7⟩ : Digit 10 d x)⟩
                      rw [hr x r' hx] at this
                      simp at this
                  | cons y q =>
                    simp only [List.cons_append, List.cons.injEq] at hx
                    rw [← hx.1]
                    exact hq y q rfl
                obtain ⟨ds1, hd1⟩ := digits_of_all hp
                obtain ⟨es, hes⟩ := digits_of_all (base := 10) (s := q) (by
                  intro x hx
                  have := Digits.isDigit (Digits.cons hdc' hds) x
                  rw [hpq] at this
                  exact this (List.mem_append_right _ hx))
                have hall : Digits 10 (0 :: (ds1 ++ es)) ('0' :: c :: s) := by
                  rw [hpq]
                  exact .cons hdc (Digits.append (Digits.mono (by decide) hd1) hes)
                obtain ⟨hv1, hv2⟩ := val (by decide) hall h2
                have hnone : parseI128 8 p = none := by
                  cases hx : parseI128 8 p with
                  | none => rfl
                  | some w =>
                    have e : preceded (tag c!"0") (takeWhile1 (isDigit 8)) ('0' :: c :: s ++ r) =
                        some (p, q ++ r) := by
                      refine preceded_some (a := ()) (r := c :: s ++ r) (by simp [tag]) ?_
                      rw [hpq, List.append_assoc]
                      exact takeWhile1_run hp hpne hqr
                    rw [mapOpt_some e hx] at hoct
                    simp at hoct
                rw [parseI128_eq (by decide) hd1] at hnone
                split at hnone
                · simp at hnone
                · rename_i hbig
                  have h6 := positional_le_of_base (b := 8) (b' := 10) (by decide) ds1
                  have h7 := positional_prefix 10 ds1 es (by decide)
                  have h8 : positional 10 (0 :: (ds1 ++ es)) = positional 10 (ds1 ++ es) := by
                    simp [positional]
                  simp only [i128Max] at hbig
                  omega
              · rw [hveq]
                refine .zeros ?_ (.cons hdc' hds)
                have h1 := hdc'.1
                have h2 := hdc'.2
                have h3 : ¬ d < 8 := fun h => ho (isDigit_iff.2 ⟨d, h, h2⟩)
                have : d = 8 ∨ d = 9 := by omega
                rcases this with rfl | rfl
                · exact .inl (char_eq_of_toNat (by have : '8'.toNat = 56 := rfl; omega))
                · exact .inr (char_eq_of_toNat (by have : '9'.toNat = 57 := rfl; omega))
        · rw [hveq]
          exact .const (.dec hd hne hz)

/-- **C103**: a token is read as an integer exactly when it is an integer constant of C, or a
`0` and decimal digits of which the first is 8 or 9, with one of the suffixes of the table, and
its value is below 2^127; and it is read as this value with the type of the suffix. -/
theorem C103_integers (t : Str) (i : LitInt) :
    Lit.tryFrom t = some (.int i) ↔
      ∃ s u n ty, t = s ++ u ∧ Spec.IntRead s n ∧ (u, ty) ∈ Spec.intSuffixes ∧ n < 2 ^ 127 ∧
        i.value.toInt = n ∧ i.suffix = ty := by
  have vals : ∀ (i : LitInt) (n : Nat), n < 2 ^ 127 → i.value.toInt = n →
      i = ⟨BitVec.ofNat 128 n, i.suffix⟩ := by
    intro i n hn h
    have : i.value = BitVec.ofNat 128 n := BitVec.eq_of_toInt_eq (by rw [h, toInt_ofNat hn])
    rw [← this]
  constructor
  · intro h
    unfold Lit.tryFrom allConsuming at h
    have h1 : Lit.parseStr t = some (.int i, []) := by
      split at h
      · rename_i hp
        simp only [Option.map_some, Option.some.injEq] at h
        rw [hp, h]
      · simp at h
    have h2 : LitInt.parseStr t = some (i, []) := by
      rcases or_inv h1 with h | ⟨-, h⟩
      · obtain ⟨_, -, h⟩ := map_inv h; simp at h
      · rcases or_inv h with h | ⟨-, h⟩
        · obtain ⟨_, -, h⟩ := map_inv h; simp at h
        · rcases or_inv h with h | ⟨-, h⟩
          · obtain ⟨_, -, h⟩ := map_inv h; simp at h
          · obtain ⟨v', h, h'⟩ := map_inv h
            simp only [Lit.int.injEq] at h'
            rw [h', h]
    obtain ⟨⟨n, x⟩, h3, rfl⟩ := map_inv h2
    obtain ⟨r, h4, h5⟩ := seq_inv h3
    obtain ⟨s, rfl, hs, hn⟩ := intDigits_inv h4
    exact ⟨s, r, n, intSuffixType x, rfl, hs, (intSuffix_inv h5).2, hn, toInt_ofNat hn, rfl⟩
  · rintro ⟨s, u, n, ty, rfl, hs, hu, hn, hi, rfl⟩
    cases hs with
    | const hc =>
      rw [vals i n hn hi]
      exact (C25_suffixes_exact s u n hc hn (numEnd_suffix hu).spec _).2 ⟨i.suffix, hu, rfl⟩
    | @zeros c s ds hc hd =>
      have ht := numEnd_suffix hu
      have hd0 : Digits 10 (0 :: ds) ('0' :: c :: s) := .cons ⟨by decide, .inl (by decide)⟩ hd
      have hf : LitFloat.parseStr ('0' :: c :: s ++ u) = none :=
        float_none (Digits.isDigit hd0) (by simp) (ht.noDigit (by decide)) ht.noFloat
      have hcn : c.toNat = 56 ∨ c.toNat = 57 := by
        rcases hc with rfl | rfl
        · exact .inl rfl
        · exact .inr rfl
      have htag : ∀ k : Char, 97 ≤ k.toNat → k.toLower = k →
          tagNoCase ['0', k] ('0' :: c :: s ++ u) = none := by
        intro k hk hl
        refine tagNoCase_second hl ?_ ?_
        · rintro rfl; omega
        · omega
      have h1 : preceded (tagNoCase c!"0x") (takeWhile1 (isDigit 16)) ('0' :: c :: s ++ u) = none :=
        preceded_none (htag 'x' (by decide) (by decide))
      have h2 : preceded (tagNoCase c!"0b") (takeWhile1 fun c => c == '0' || c == '1')
          ('0' :: c :: s ++ u) = none :=
        preceded_none (htag 'b' (by decide) (by decide))
      have h3 : preceded (tag c!"0") (takeWhile1 (isDigit 8)) ('0' :: c :: s ++ u) = none :=
        preceded_none' (a := ()) (r := c :: s ++ u) (by simp [tag]) (takeWhile1_stop (by
          intro x r hx
          simp only [List.cons_append, List.cons.injEq] at hx
          rw [← hx.1]
          rcases hc with rfl | rfl <;> decide))
      have hdig : intDigits ('0' :: c :: s ++ u) = some (positional 10 ds, u) := by
        rw [intDigits, or_right (mapOpt_none' h1), or_right (mapOpt_none' h2),
          or_right (mapOpt_none' h3)]
        refine mapOpt_some (takeWhile1_run (Digits.isDigit hd0) (by simp)
          (ht.noDigit (by decide))) ?_
        have e : positional 10 (0 :: ds) = positional 10 ds := by simp [positional]
        rw [parseI128_eq (by decide) hd0, e, if_pos (by simp only [i128Max]; omega)]
      have hint := litInt_of_digits hdig hu
      rw [vals i _ hn hi]
      unfold Lit.tryFrom allConsuming
      rw [List.cons_append] at hf hint ⊢
      rw [lit_digit_head (by decide), or_right (map_none hf), map_some hint]
      rfl

/-- Leading zeros before 8 or 9 are skipped, but octal digits before them are not. -/
example : Lit.tryFrom c!"089uL" = some (.int ⟨89, some .uLong⟩) :=
  (C103_integers _ _).2 ⟨c!"089", c!"uL", 89, some .uLong, rfl,
    .zeros (ds := [8, 9]) (.inl rfl)
      (.cons ⟨by decide, .inl (by decide)⟩ (.cons ⟨by decide, .inl (by decide)⟩ .nil)),
    by decide, by decide, by decide, rfl⟩

example : ∃ s u n ty, c!"0x1FULL" = s ++ u ∧ Spec.IntRead s n ∧ (u, ty) ∈ Spec.intSuffixes ∧
    n < 2 ^ 127 ∧ (31#128).toInt = n ∧ some BuiltInType.uLongLong = ty :=
  (C103_integers _ ⟨31, some .uLongLong⟩).1 (by decide +kernel)

example : ¬ ∃ s u n ty, c!"018" = s ++ u ∧ Spec.IntRead s n ∧ (u, ty) ∈ Spec.intSuffixes ∧
    n < 2 ^ 127 ∧ (18#128).toInt = n ∧ none = ty := by
  intro h
  have := (C103_integers c!"018" ⟨18, none⟩).2 h
  rw [show Lit.tryFrom c!"018" = none from by decide +kernel] at this
  simp at this

end CMacro
