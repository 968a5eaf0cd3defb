import Verif.Props.Text
import Verif.Proofs.Paste
import Verif.Spec.ReadText

/-!
# Property C102: exactly which string and character literals are read, and as what
-/

namespace CMacro
open Parser
open Spec (Digits Digit NoDigit positional simpleEscapes EscRead TextRead EscBytes encode16
  EscUnits16 EscChar CharRead Prefix strToken chrToken)

theorem manyMN_full {base m : Nat} : ∀ (n k : Nat) (i r : Str) (ds : List Nat),
    manyMN m (digitP base) n k i = some (ds, r) →
    ∃ s, Digits base ds s ∧ i = s ++ r ∧ ds.length ≤ n ∧ m ≤ k + ds.length ∧
      (ds.length = n ∨ NoDigit base r) := by
  intro n
  induction n with
  | zero =>
    intro k i r ds h
    simp only [manyMN] at h
    split at h
    · simp at h
    · simp only [Option.some.injEq, Prod.mk.injEq] at h
      obtain ⟨rfl, rfl⟩ := h
      exact ⟨[], .nil, rfl, by simp, by simp; omega, .inl rfl⟩
  | succ n ih =>
    intro k i r ds h
    simp only [manyMN] at h
    split at h
    · rename_i hd
      split at h
      · simp at h
      · simp only [Option.some.injEq, Prod.mk.injEq] at h
        obtain ⟨rfl, rfl⟩ := h
        refine ⟨[], .nil, rfl, by simp, by simp; omega, .inr ?_⟩
        intro c r d hc hdig
        rw [hc] at hd
        have := digitP_some (s := r) hdig
        rw [this] at hd
        simp at hd
    · rename_i d r' hd
      split at h
      · rename_i ds' r'' hm
        simp only [Option.some.injEq, Prod.mk.injEq] at h
        obtain ⟨rfl, rfl⟩ := h
        obtain ⟨s, h1, h2, h3, h4, h5⟩ := ih _ _ _ _ hm
        cases i with
        | nil => simp [digitP, mapOpt, satisfy] at hd
        | cons c i =>
          simp only [digitP, mapOpt, satisfy, if_true] at hd
          split at hd
          · rename_i hc
            simp only [Option.some.injEq, Prod.mk.injEq] at hd
            obtain ⟨rfl, rfl⟩ := hd
            refine ⟨c :: s, .cons (toDigit_eq_some.1 hc) h1, by rw [h2]; rfl, by simp; omega,
              by simp; omega, ?_⟩
            rcases h5 with h5 | h5
            · exact .inl (by simp [h5])
            · exact .inr h5
          · simp at hd
      · simp at h

theorem digits_read {base m n v : Nat} {i r : Str}
    (h : map (manyMN m (digitP base) n 0) (foldDigits base) i = some (v, r)) :
    ∃ ds s, Digits base ds s ∧ i = s ++ r ∧ s.length ≤ n ∧ m ≤ s.length ∧
      (s.length = n ∨ NoDigit base r) ∧ v = positional base ds := by
  obtain ⟨ds, h', rfl⟩ := map_inv h
  obtain ⟨s, h1, h2, h3, h4, h5⟩ := manyMN_full _ _ _ _ _ h'
  have := Digits.length h1
  exact ⟨ds, s, h1, h2, by omega, by omega, by rw [this]; exact h5, foldDigits_eq _ _⟩

theorem simple_read {i r : Str} {n : Nat} (h : map simpleEscape Char.toNat i = some (n, r)) :
    ∃ k, i = k :: r ∧ (k, n) ∈ simpleEscapes := by
  obtain ⟨c, h', rfl⟩ := map_inv h
  clear h
  unfold simpleEscape at h'
  split at h' <;> first
    | (simp at h'; done)
    | (simp only [Option.some.injEq, Prod.mk.injEq] at h'
       obtain ⟨rfl, rfl⟩ := h'
       exact ⟨_, rfl, by decide⟩)

theorem tag_one {c : Char} {i r : Str} {u : Unit} (h : tag [c] i = some (u, r)) : i = c :: r := by
  cases i with
  | nil => simp [tag] at h
  | cons x i =>
    simp only [tag] at h
    split at h
    · rename_i hx
      simp at h
      rw [← hx, h]
    · simp at h

theorem lower_x {c : Char} (h : 'x'.toLower = c.toLower) : c = 'x' ∨ c = 'X' := by
  have hx : 'x'.toLower = 'x' := by decide
  rw [hx] at h
  unfold Char.toLower at h
  split at h
  · rename_i hc
    right
    apply Char.ext
    have := congrArg Char.val h
    simp at this
    have h1 := congrArg UInt32.toNat this
    have h2 := char_lt c
    apply UInt32.toNat.inj
    simp at h1 hc ⊢
    omega
  · exact .inl h.symm

theorem tagx {i r : Str} {u : Unit} (h : tagNoCase c!"x" i = some (u, r)) :
    ∃ x, (x = 'x' ∨ x = 'X') ∧ i = x :: r := by
  cases i with
  | nil => simp [tagNoCase] at h
  | cons x i =>
    simp only [tagNoCase] at h
    split at h
    · rename_i hx
      simp at h
      subst h
      refine ⟨x, ?_, rfl⟩
      exact lower_x hx
    · simp at h

theorem escaped_read {i r : Str} {n : Nat} (h : escapedChar i = some (n, r)) :
    ∃ t, i = t ++ r ∧ EscRead t n r := by
  obtain ⟨_, j, h0, h1⟩ := preceded_inv h
  clear h
  rw [tag_one h0]
  clear h0
  rcases or_inv h1 with h | ⟨-, h⟩ <;> clear h1
  · obtain ⟨k, rfl, hk⟩ := simple_read h
    exact ⟨['\\', k], rfl, .simple hk⟩
  · rcases or_inv h with h1 | ⟨-, h1⟩ <;> clear h
    · rcases or_inv h1 with h | ⟨-, h⟩ <;> clear h1
      · obtain ⟨ds, s, h1, rfl, h3, h4, h5, rfl⟩ := digits_read h
        exact ⟨'\\' :: s, rfl, .octal h1 (by rintro rfl; simp at h4) h3 h5⟩
      · obtain ⟨_, j', h6, h7⟩ := preceded_inv h
        obtain ⟨x, hx, rfl⟩ := tagx h6
        obtain ⟨ds, s, h1, rfl, h3, h4, h5, rfl⟩ := digits_read h7
        exact ⟨'\\' :: x :: s, rfl, .hex hx h1 (by omega)⟩
    · rcases or_inv h1 with h | ⟨-, h⟩ <;> clear h1
      · obtain ⟨_, j', h6, h7⟩ := preceded_inv h
        rw [tag_one h6]
        obtain ⟨ds, s, h1, rfl, h3, h4, h5, rfl⟩ := digits_read h7
        exact ⟨'\\' :: 'u' :: s, rfl, .ucn4 h1 (by omega)⟩
      · obtain ⟨_, j', h6, h7⟩ := preceded_inv h
        rw [tag_one h6]
        obtain ⟨ds, s, h1, rfl, h3, h4, h5, rfl⟩ := digits_read h7
        exact ⟨'\\' :: 'U' :: s, rfl, .ucn8 h1 (by omega)⟩

theorem escaped_write {t r : Str} {n : Nat} (h : EscRead t n r) :
    escapedChar (t ++ r) = some (n, r) := by
  have bs : ∀ x : Str, tag c!"\\" ('\\' :: x) = some ((), x) := by intro x; simp [tag]
  cases h with
  | simple hk => exact preceded_some (bs _) (or_left (simpleEscape_mem hk r))
  | @octal ds s _ hd hne hl hor =>
    obtain ⟨d, ds', c, s', rfl, rfl, hdc⟩ := digits_ne_nil hd hne
    refine preceded_some (bs _) ?_
    show or _ _ (c :: (s' ++ r)) = _
    rw [or_right (map_none (simpleEscape_none (not_simple_of_octal hdc) _))]
    refine or_left (or_left ?_)
    have hlen := Digits.length hd
    have := manyMN_upto (m := 1) r 3 0 hd (by simp) (by omega)
      (by rcases hor with h | h; exact .inl (by omega); exact .inr h)
    rw [List.cons_append] at this
    rw [map_some this, foldDigits_eq]
  | @hex x ds s _ hx hd hl =>
    have hlen := Digits.length hd
    refine preceded_some (bs _) ?_
    show or _ _ (x :: (s ++ r)) = _
    have h1 : ∀ n, (x, n) ∉ simpleEscapes := by
      rcases hx with rfl | rfl <;> simp [simpleEscapes]
    have h2 : 55 < x.toNat := by rcases hx with rfl | rfl <;> decide
    have h3 : tagNoCase c!"x" (x :: (s ++ r)) = some ((), s ++ r) := by
      rcases hx with rfl | rfl <;> simp [tagNoCase]
    rw [or_right (map_none (simpleEscape_none h1 _))]
    refine or_left ?_
    rw [numericEscape, or_right (map_none (manyMN_none (by decide) (noOctal_cons h2)))]
    have := manyMN_upto (m := 2) r 2 0 hd (by omega) (by omega) (.inl (by omega))
    refine preceded_some h3 ?_
    rw [map_some this, foldDigits_eq]
  | @ucn4 ds s _ hd hl =>
    have hlen := Digits.length hd
    refine preceded_some (bs _) ?_
    show or _ _ ('u' :: (s ++ r)) = _
    rw [or_right (map_none (simpleEscape_none (by simp [simpleEscapes]) _))]
    rw [or_right]
    · rw [← List.cons_append, universalChar4 hd (by omega)]
    · rw [numericEscape, or_right (map_none (manyMN_none (by decide) (noOctal_cons (by decide))))]
      exact preceded_none (by simp [tagNoCase])
  | @ucn8 ds s _ hd hl =>
    have hlen := Digits.length hd
    refine preceded_some (bs _) ?_
    show or _ _ ('U' :: (s ++ r)) = _
    rw [or_right (map_none (simpleEscape_none (by simp [simpleEscapes]) _))]
    rw [or_right]
    · rw [← List.cons_append, universalChar8 hd (by omega)]
    · rw [numericEscape, or_right (map_none (manyMN_none (by decide) (noOctal_cons (by decide))))]
      exact preceded_none (by simp [tagNoCase])

theorem escRead_pos {t r : Str} {n : Nat} (h : EscRead t n r) : 0 < t.length := by
  cases h <;> simp

/-- What follows an escape matters only up to a character that is no digit. -/
theorem escRead_follow {t r r' : Str} {n : Nat} (h : EscRead t n r)
    (hr : NoDigit 8 r → NoDigit 8 r') : EscRead t n r' := by
  cases h with
  | simple hk => exact .simple hk
  | octal hd hne hl hor => exact .octal hd hne hl (hor.imp id hr)
  | hex hx hd hl => exact .hex hx hd hl
  | ucn4 hd hl => exact .ucn4 hd hl
  | ucn8 hd hl => exact .ucn8 hd hl

theorem noDigit_stop {z : Char} (hz : ∀ d, ¬ Digit 8 d z) (s t : Str) :
    NoDigit 8 (s ++ z :: t) ↔ NoDigit 8 s := by
  cases s with
  | nil =>
    constructor
    · intro _ c r d h; simp at h
    · intro _ c r d h hd
      simp only [List.nil_append, List.cons.injEq] at h
      rw [← h.1] at hd
      exact hz d hd
  | cons x s =>
    constructor
    · intro h c r d he
      simp only [List.cons.injEq] at he
      obtain ⟨rfl, rfl⟩ := he
      exact h _ _ d rfl
    · intro h c r d he
      simp only [List.cons_append, List.cons.injEq] at he
      obtain ⟨rfl, rfl⟩ := he
      exact h _ _ d rfl

theorem quote_noDigit : ∀ d, ¬ Digit 8 d '"' := by
  rintro d ⟨_, h⟩
  simp at h
  omega

theorem squote_noDigit : ∀ d, ¬ Digit 8 d '\'' := by
  rintro d ⟨_, h⟩
  simp at h
  omega

section
variable {γ β : Type} (f : Nat → Option γ) (g : Str → γ) (w : γ → List β)
  {raw : Char → List β} {R : Nat → List β → Prop}

theorem raw_run {s us} : ∀ {run : Str}, (∀ c ∈ run, plainC c = true) → TextRead raw R s us →
    TextRead raw R (run ++ s) (run.flatMap raw ++ us) := by
  intro run
  induction run with
  | nil => intro _ h; exact h
  | cons c run ih =>
    intro hc h
    obtain ⟨h1, h2, h3⟩ := plainC_iff.1 (hc c List.mem_cons_self)
    rw [List.flatMap_cons, List.append_assoc]
    exact .raw h1 h2 h3 (ih (fun c h => hc c (List.mem_cons_of_mem _ h)) h)

theorem text_read (hg : ∀ s, w (g s) = s.flatMap raw)
    (hR : ∀ n p, f n = some p → R n (w p)) (t : Str) : ∀ (k : Nat) (i : Str) (ps : List γ),
    i.length ≤ k → many0 (elemP f g) i = some (ps, '"' :: t) →
    ∃ s, i = s ++ '"' :: t ∧ TextRead raw R s (ps.flatMap w) := by
  have hsh := shrinks_elemP f g
  intro k
  induction k with
  | zero =>
    intro i ps hk h
    cases i with
    | nil => 
      rw [many0_none (by simp [elemP, Parser.or, mapOpt, Parser.map, strRun, takeWhile1, escapedChar,
        preceded, seq, tag])] at h
      simp at h
    | cons c i => simp at hk
  | succ k ih =>
    intro i ps hk h
    rw [many0_eq hsh] at h
    split at h
    · simp only [Option.some.injEq, Prod.mk.injEq] at h
      obtain ⟨rfl, rfl⟩ := h
      exact ⟨[], rfl, .nil⟩
    · rename_i a r ha
      have hle := hsh _ _ _ ha
      split at h
      · simp at h
      · rename_i hne
        split at h
        · rename_i as r' hm
          simp only [Option.some.injEq, Prod.mk.injEq] at h
          obtain ⟨rfl, rfl⟩ := h
          obtain ⟨s, rfl, hs⟩ := ih r as (by omega) hm
          rw [List.flatMap_cons]
          rcases or_inv ha with h1 | ⟨-, h1⟩
          · obtain ⟨n, h1, h2⟩ := mapOpt_inv h1
            obtain ⟨t', rfl, ht⟩ := escaped_read h1
            exact ⟨t' ++ s, by simp, .esc (escRead_follow ht
              (noDigit_stop quote_noDigit s t).1) (hR _ _ h2) hs⟩
          · obtain ⟨run, h2, rfl⟩ := map_inv h1
            obtain ⟨rfl, hrun⟩ := takeWhile1_inv (f := plainC) h2
            refine ⟨run ++ s, by simp, ?_⟩
            rw [hg]
            exact raw_run hrun hs
        · simp at h

theorem text_write (hg : ∀ s, w (g s) = s.flatMap raw)
    (hR : ∀ n u, R n u → ∃ p, f n = some p ∧ w p = u) (t : Str) {s : Str} {us : List β}
    (h : TextRead raw R s us) :
    ∃ ps, many0 (elemP f g) (s ++ '"' :: t) = some (ps, '"' :: t) ∧ ps.flatMap w = us := by
  have hsh := shrinks_elemP f g
  induction h with
  | nil => exact ⟨[], many0_none (elemP_quote f g t), rfl⟩
  | @raw c s us h1 h2 h3 _ ih =>
    obtain ⟨parts, hm, hp⟩ := ih
    have hpc : plainC c = true := plainC_iff.2 ⟨h1, h2, h3⟩
    have hP : ∀ r tw dw, r.takeWhile plainC = tw → r.dropWhile plainC = dw →
        elemP f g (c :: r) = some (g (c :: tw), dw) := by
      intro r tw dw htw hdw
      rw [elemP, or_right (mapOpt_none' (escapedChar_none h1))]
      refine map_some ?_
      rw [strRun_eq]
      simp [takeWhile1, hpc, htw, hdw]
    cases hi : s ++ '"' :: t with
    | nil => simp at hi
    | cons x r =>
      rw [hi] at hm
      by_cases hx : plainC x = true
      · have hx' := plainC_iff.1 hx
        have hPx : elemP f g (x :: r) = some (g (x :: r.takeWhile plainC), r.dropWhile plainC) := by
          rw [elemP, or_right (mapOpt_none' (escapedChar_none hx'.1))]
          refine map_some ?_
          rw [strRun_eq]
          simp [takeWhile1, hx]
        have hlt : (r.dropWhile plainC).length ≤ r.length := by
          have := List.takeWhile_append_dropWhile (p := plainC) (l := r)
          have := congrArg List.length this
          rw [List.length_append] at this; omega
        rw [many0_eq hsh, hPx] at hm
        simp only [List.length_cons] at hm
        rw [if_neg (by omega)] at hm
        split at hm
        · rename_i q r' hq
          simp only [Option.some.injEq, Prod.mk.injEq] at hm
          obtain ⟨rfl, rfl⟩ := hm
          refine ⟨g (c :: x :: r.takeWhile plainC) :: q, ?_, ?_⟩
          · rw [List.cons_append, hi]
            refine many0_some hsh (hP _ _ _ ?_ ?_) ?_ hq
            · simp [List.takeWhile_cons, hx]
            · simp [List.dropWhile_cons, hx]
            · simp; omega
          · rw [← hp, List.flatMap_cons, List.flatMap_cons, hg, hg]
            simp
        · simp at hm
      · have hx : plainC x = false := by simpa using hx
        refine ⟨g [c] :: parts, ?_, ?_⟩
        · rw [List.cons_append, hi]
          refine many0_some hsh (hP _ [] (x :: r) ?_ ?_) ?_ hm
          · simp [List.takeWhile_cons, hx]
          · simp [List.dropWhile_cons, hx]
          · simp
        · rw [List.flatMap_cons, hp, hg]
          simp
  | @esc t' n s u us he hu _ ih =>
    obtain ⟨parts, hm, hp⟩ := ih
    obtain ⟨p, hfp, hw⟩ := hR _ _ hu
    have he' : EscRead t' n (s ++ '"' :: t) :=
      escRead_follow he (noDigit_stop quote_noDigit s t).2
    have hP : elemP f g (t' ++ (s ++ '"' :: t)) = some (p, s ++ '"' :: t) :=
      or_left (mapOpt_some (escaped_write he') hfp)
    refine ⟨p :: parts, ?_, ?_⟩
    · rw [List.append_assoc]
      refine many0_some hsh hP ?_ hm
      have := escRead_pos he
      rw [List.length_append (as := t')]
      omega
    · rw [List.flatMap_cons, hp, hw]

end

/-! ## Decoding -/

theorem ofNat_small {n : Nat} (h : n < 256) (b : UInt8) (hb : b.toNat = n) : UInt8.ofNat n = b := by
  apply UInt8.toNat.inj
  rw [toNat_ofNat h, hb]

theorem toNat_charOf {n : Nat} (h : n.isValidChar) : (Char.ofNat n).toNat = n := by
  simp [Char.ofNat, h, Char.toNat, Char.ofNatAux]

theorem utf8Dec_sound : ∀ (k : Nat) (bs : List UInt8) (cs : Str), bs.length ≤ k →
    utf8Dec bs = some cs → bs = cs.flatMap String.utf8EncodeChar := by
  have henc : ∀ (c : Char), String.utf8EncodeChar c = utf8Enc c := fun c => (utf8Enc_eq c).symm
  intro k
  induction k with
  | zero =>
    intro bs cs hk h
    cases bs with
    | nil => simp [utf8Dec] at h; simp [h]
    | cons b bs => simp at hk
  | succ k ih =>
    intro bs cs hk h
    cases bs with
    | nil => simp [utf8Dec] at h; simp [h]
    | cons b0 r =>
      have hb0 := b0.toNat_lt
      rw [utf8Dec.eq_def] at h
      simp only at h
      split at h
      · rename_i h0
        simp only [Option.map_eq_some_iff] at h
        obtain ⟨cs', h, rfl⟩ := h
        have hv : b0.toNat.isValidChar := .inl (by omega)
        rw [List.flatMap_cons, ← ih r cs' (by simp at hk; omega) h, henc, utf8Enc]
        simp only [toNat_charOf hv]
        rw [if_pos h0, ofNat_small (by omega) b0 rfl]
        rfl
      · split at h
        · simp at h
        · split at h
          · split at h
            · rename_i b1 r
              have hb1 := b1.toNat_lt
              split at h
              · rename_i hc
                split at h
                · rename_i hn
                  simp only [Option.map_eq_some_iff] at h
                  obtain ⟨cs', h, rfl⟩ := h
                  simp only [isCont, Bool.and_eq_true, decide_eq_true_eq] at hc
                  have hv : ((b0.toNat - 0xC0) * 64 + (b1.toNat - 0x80)).isValidChar :=
                    .inl (by omega)
                  rw [List.flatMap_cons, ← ih r cs' (by simp at hk; omega) h, henc, utf8Enc]
                  simp only [toNat_charOf hv]
                  rw [if_neg (by omega), if_pos (by omega), ofNat_small (by omega) b0 (by omega),
                    ofNat_small (by omega) b1 (by omega)]
                  rfl
                · simp at h
              · simp at h
            · simp at h
          · split at h
            · split at h
              · rename_i b1 b2 r
                have hb1 := b1.toNat_lt
                have hb2 := b2.toNat_lt
                split at h
                · rename_i hc
                  split at h
                  · rename_i hn
                    simp only [Option.map_eq_some_iff] at h
                    obtain ⟨cs', h, rfl⟩ := h
                    simp only [isCont, Bool.and_eq_true, decide_eq_true_eq] at hc
                    rw [List.flatMap_cons, ← ih r cs' (by simp at hk; omega) h, henc, utf8Enc]
                    simp only [toNat_charOf hn.2]
                    rw [if_neg (by omega), if_neg (by omega), if_pos (by omega),
                      ofNat_small (by omega) b0 (by omega), ofNat_small (by omega) b1 (by omega),
                      ofNat_small (by omega) b2 (by omega)]
                    rfl
                  · simp at h
                · simp at h
              · simp at h
            · split at h
              · split at h
                · rename_i b1 b2 b3 r
                  have hb1 := b1.toNat_lt
                  have hb2 := b2.toNat_lt
                  have hb3 := b3.toNat_lt
                  split at h
                  · rename_i hc
                    split at h
                    · rename_i hn
                      simp only [Option.map_eq_some_iff] at h
                      obtain ⟨cs', h, rfl⟩ := h
                      simp only [isCont, Bool.and_eq_true, decide_eq_true_eq] at hc
                      rw [List.flatMap_cons, ← ih r cs' (by simp at hk; omega) h, henc, utf8Enc]
                      simp only [toNat_charOf hn.2]
                      rw [if_neg (by omega), if_neg (by omega), if_neg (by omega),
                        ofNat_small (by omega) b0 (by omega), ofNat_small (by omega) b1 (by omega),
                        ofNat_small (by omega) b2 (by omega), ofNat_small (by omega) b3 (by omega)]
                      rfl
                    · simp at h
                  · simp at h
                · simp at h
              · simp at h

theorem utf16_same (c : Char) : utf16Enc c = encode16 c := by
  simp only [utf16Enc, encode16, Nat.add_comm]

theorem utf16Dec_sound : ∀ (k : Nat) (us : List Nat) (cs : Str), us.length ≤ k →
    (∀ u ∈ us, u < 0x10000) → utf16Dec us = some cs → us = cs.flatMap encode16 := by
  intro k
  induction k with
  | zero =>
    intro us cs hk _ h
    cases us with
    | nil => simp [utf16Dec] at h; simp [h]
    | cons b bs => simp at hk
  | succ k ih =>
    intro us cs hk hlt h
    cases us with
    | nil => simp [utf16Dec] at h; simp [h]
    | cons u r =>
      have hu := hlt u List.mem_cons_self
      rw [utf16Dec.eq_def] at h
      simp only at h
      split at h
      · split at h
        · rename_i v r
          split at h
          · simp only [Option.map_eq_some_iff] at h
            obtain ⟨cs', h, rfl⟩ := h
            have hv : (0x10000 + (u - 0xD800) * 1024 + (v - 0xDC00)).isValidChar :=
              .inr (by omega)
            rw [List.flatMap_cons, ← ih r cs' (by simp at hk; omega)
              (fun x hx => hlt x (by simp [hx])) h, encode16]
            simp only [toNat_charOf hv]
            rw [if_neg (by omega)]
            simp only [List.cons_append, List.nil_append, List.cons.injEq, and_true]
            omega
          · simp at h
        · simp at h
      · split at h
        · simp at h
        · simp only [Option.map_eq_some_iff] at h
          obtain ⟨cs', h, rfl⟩ := h
          have hv : u.isValidChar := by unfold Nat.isValidChar; omega
          rw [List.flatMap_cons, ← ih r cs' (by simp at hk; omega)
            (fun x hx => hlt x (by simp [hx])) h, encode16]
          simp only [toNat_charOf hv]
          rw [if_pos (by omega)]
          rfl

/-! ## The kinds of string -/

theorem quoted_inv {α β : Type} {p : Parser Char α} {F : α → β} {i r : Str} {x : β}
    (h : delimited dquote (map p F) dquote i = some (x, r)) :
    ∃ a j, i = '"' :: j ∧ p j = some (a, '"' :: r) ∧ x = F a := by
  obtain ⟨⟨x', _⟩, h1, rfl⟩ := map_inv h
  obtain ⟨r', h2, h3⟩ := seq_inv h1
  obtain ⟨_, j, h4, h5⟩ := preceded_inv h2
  obtain ⟨a, h6, h7⟩ := map_inv h5
  rw [tag_one h3] at h6
  exact ⟨a, j, tag_one h4, h6, h7⟩

theorem ordinary_read {i r : Str} {bs : List UInt8} (h : parseOrdinary i = some (bs, r)) :
    ∃ s, i = '"' :: s ++ '"' :: r ∧ TextRead String.utf8EncodeChar EscBytes s bs := by
  obtain ⟨ps, j, rfl, hm, rfl⟩ := quoted_inv h
  obtain ⟨s, rfl, hs⟩ := text_read ordinaryEscape utf8EncStr id (raw := String.utf8EncodeChar)
    (R := EscBytes) (by intro s; simp only [id, utf8EncStr]; congr 1; funext c; exact utf8Enc_eq c)
    (by
      intro n p hp
      simp only [ordinaryEscape] at hp
      split at hp
      · rename_i hn
        simp only [Option.some.injEq] at hp
        subst hp
        exact .byte hn
      · rename_i hn
        simp only [charOfNat] at hp
        split at hp
        · rename_i hv
          simp only [Option.map_some, Option.some.injEq] at hp
          subst hp
          rw [utf8Enc_eq]
          have := EscBytes.char (c := Char.ofNat n) (by rw [toNat_charOf hv]; omega)
          rwa [toNat_charOf hv] at this
        · simp at hp)
    r _ _ ps (Nat.le_refl _) hm
  refine ⟨s, by simp, ?_⟩
  rwa [List.flatMap_id] at hs

theorem ordinary_write {s : Str} {bs : List UInt8}
    (h : TextRead String.utf8EncodeChar EscBytes s bs) (r : Str) :
    parseOrdinary ('"' :: s ++ '"' :: r) = some (bs, r) := by
  obtain ⟨ps, hm, hw⟩ := text_write ordinaryEscape utf8EncStr id (raw := String.utf8EncodeChar)
    (R := EscBytes) (by intro s; simp only [id, utf8EncStr]; congr 1; funext c; exact utf8Enc_eq c)
    (by
      intro n u hu
      cases hu with
      | byte hn => exact ⟨_, if_pos hn, rfl⟩
      | @char c hc =>
        refine ⟨String.utf8EncodeChar c, ?_, rfl⟩
        rw [ordinaryEscape, if_neg (by omega), charOfNat_toNat, Option.map_some, utf8Enc_eq])
    r h
  rw [List.flatMap_id] at hw
  rw [← hw]
  exact quoted hm

theorem utf16_bound {s : Str} {us : List Nat} (h : TextRead encode16 EscUnits16 s us) :
    ∀ u ∈ us, u < 0x10000 := by
  have hc : ∀ c : Char, ∀ u ∈ encode16 c, u < 0x10000 := by
    intro c u hu
    have := char_lt c
    simp only [encode16] at hu
    split at hu
    · simp at hu; omega
    · simp at hu; omega
  induction h with
  | nil => simp
  | raw _ _ _ _ ih =>
    intro u hu
    rcases List.mem_append.1 hu with hu | hu
    · exact hc _ u hu
    · exact ih u hu
  | esc _ he _ ih =>
    intro u hu
    rcases List.mem_append.1 hu with hu | hu
    · cases he with
      | unit hn => simp at hu; omega
      | char _ => exact hc _ u hu
    · exact ih u hu

theorem utf16_foldl (ps : List Part16) :
    (ps.foldl Part16.append (.str [])).toVec = ps.flatMap Part16.toVec := by
  rw [Part16.foldl_toVec]
  simp [Part16.toVec]

theorem utf16_read {i r : Str} {cs : Str} (h : parseUtf16 i = some (cs, r)) :
    ∃ s, i = '"' :: s ++ '"' :: r ∧ TextRead encode16 EscUnits16 s (cs.flatMap encode16) := by
  obtain ⟨p, h1, h2⟩ := mapOpt_inv h
  obtain ⟨ps, j, rfl, hm, rfl⟩ := quoted_inv h1
  obtain ⟨s, rfl, hs⟩ := text_read utf16Escape Part16.str Part16.toVec (raw := encode16)
    (R := EscUnits16) (by intro s; simp only [Part16.toVec]; congr 1; funext c; exact utf16_same c)
    (by
      intro n p hp
      simp only [utf16Escape] at hp
      split at hp
      · rename_i hn
        simp only [Option.some.injEq] at hp
        subst hp
        exact .unit hn
      · rename_i hn
        simp only [charOfNat] at hp
        split at hp
        · rename_i hv
          simp only [Option.map_some, Option.some.injEq] at hp
          subst hp
          rw [Part16.toVec, utf16_same]
          have := EscUnits16.char (c := Char.ofNat n) (by rw [toNat_charOf hv]; omega)
          rwa [toNat_charOf hv] at this
        · simp at hp)
    r _ _ ps (Nat.le_refl _) hm
  refine ⟨s, by simp, ?_⟩
  rw [Part16.finish_eq, utf16_foldl] at h2
  rwa [← utf16Dec_sound _ _ _ (Nat.le_refl _) (utf16_bound hs) h2]

theorem utf16_write {s cs : Str} (h : TextRead encode16 EscUnits16 s (cs.flatMap encode16))
    (r : Str) : parseUtf16 ('"' :: s ++ '"' :: r) = some (cs, r) := by
  obtain ⟨ps, hm, hw⟩ := text_write utf16Escape Part16.str Part16.toVec (raw := encode16)
    (R := EscUnits16) (by intro s; simp only [Part16.toVec]; congr 1; funext c; exact utf16_same c)
    (by
      intro n u hu
      cases hu with
      | unit hn => exact ⟨_, if_pos hn, rfl⟩
      | @char c hc =>
        refine ⟨.vec (encode16 c), ?_, rfl⟩
        rw [utf16Escape, if_neg (by omega), charOfNat_toNat, Option.map_some, utf16_same])
    r h
  refine mapOpt_some (quoted hm) ?_
  rw [Part16.finish_eq, utf16_foldl, hw, ← utf16Dec_encStr cs]
  congr 2
  funext c
  exact (utf16_same c).symm

theorem utf32_read {i r : Str} {cs : Str} (h : parseUtf32 i = some (cs, r)) :
    ∃ s, i = '"' :: s ++ '"' :: r ∧ TextRead (fun c => [c]) EscChar s cs := by
  obtain ⟨ps, j, rfl, hm, rfl⟩ := quoted_inv h
  have hm' : many0 (elemP (fun c => (charOfNat c).map ([·])) id) j = some (ps, '"' :: r) := by
    unfold elemP
    rw [map_id_parser]
    exact hm
  obtain ⟨s, rfl, hs⟩ := text_read (fun c => (charOfNat c).map ([·])) id id (raw := fun c => [c])
    (R := EscChar) (by intro s; simp)
    (by
      intro n p hp
      simp only [charOfNat] at hp
      split at hp
      · rename_i hv
        simp only [Option.map_some, Option.some.injEq] at hp
        subst hp
        have := EscChar.char (c := Char.ofNat n)
        rwa [toNat_charOf hv] at this
      · simp at hp)
    r _ _ ps (Nat.le_refl _) hm'
  refine ⟨s, by simp, ?_⟩
  rwa [List.flatMap_id] at hs

theorem utf32_write {s cs : Str} (h : TextRead (fun c => [c]) EscChar s cs)
    (r : Str) : parseUtf32 ('"' :: s ++ '"' :: r) = some (cs, r) := by
  obtain ⟨ps, hm, hw⟩ := text_write (fun c => (charOfNat c).map ([·])) id id (raw := fun c => [c])
    (R := EscChar) (by intro s; simp)
    (by
      intro n u hu
      cases hu with
      | @char c => exact ⟨[c], by rw [charOfNat_toNat]; rfl, rfl⟩)
    r h
  rw [List.flatMap_id] at hw
  rw [← hw]
  unfold elemP at hm
  rw [map_id_parser] at hm
  exact quoted hm

/-- The element parser of wide strings. -/
abbrev wideP : Parser Char Nat := or escapedChar (map (satisfy plainC) Char.toNat)

theorem shrinks_wideP : Shrinks wideP :=
  shrinks_escapedChar.or ((Shrinks.satisfy _).map _)

theorem wideP_quote (t : Str) : wideP ('"' :: t) = none := by
  rw [wideP, or_right (escapedChar_none (by decide))]
  exact map_none (by simp [satisfy, plainC])

theorem wide_read {i r : Str} {ws : List Nat} (h : parseWide i = some (ws, r)) :
    ∃ s, i = '"' :: s ++ '"' :: r ∧ TextRead (fun c => [c.toNat]) (fun n u => u = [n]) s ws := by
  have h' : delimited dquote (map (many0 wideP) id) dquote i = some (ws, r) := by
    rw [map_id_parser]; exact h
  obtain ⟨ps, j, rfl, hm, rfl⟩ := quoted_inv h'
  have key : ∀ (k : Nat) (i : Str) (ps : List Nat), i.length ≤ k →
      many0 wideP i = some (ps, '"' :: r) →
      ∃ s, i = s ++ '"' :: r ∧ TextRead (fun c => [c.toNat]) (fun n u => u = [n]) s ps := by
    intro k
    induction k with
    | zero =>
      intro i ps hk h
      cases i with
      | nil =>
        rw [many0_none (by simp [wideP, Parser.or, Parser.map, satisfy, escapedChar, preceded, seq,
          tag])] at h
        simp at h
      | cons c i => simp at hk
    | succ k ih =>
      intro i ps hk h
      rw [many0_eq shrinks_wideP] at h
      split at h
      · simp only [Option.some.injEq, Prod.mk.injEq] at h
        obtain ⟨rfl, rfl⟩ := h
        exact ⟨[], rfl, .nil⟩
      · rename_i a r' ha
        have hle := shrinks_wideP _ _ _ ha
        split at h
        · simp at h
        · rename_i hne
          split at h
          · rename_i as r'' hm
            simp only [Option.some.injEq, Prod.mk.injEq] at h
            obtain ⟨rfl, rfl⟩ := h
            obtain ⟨s, rfl, hs⟩ := ih r' as (by omega) hm
            rcases or_inv ha with h1 | ⟨-, h1⟩
            · obtain ⟨t', rfl, ht⟩ := escaped_read h1
              exact ⟨t' ++ s, by simp, .esc (u := [a]) (escRead_follow ht
                (noDigit_stop quote_noDigit s r).1) rfl hs⟩
            · obtain ⟨c, h2, rfl⟩ := map_inv h1
              cases i with
              | nil => simp [satisfy] at h2
              | cons c' i =>
                simp only [satisfy] at h2
                split at h2
                · rename_i hc
                  simp only [Option.some.injEq, Prod.mk.injEq] at h2
                  obtain ⟨rfl, rfl⟩ := h2
                  obtain ⟨h3, h4, h5⟩ := plainC_iff.1 hc
                  exact ⟨c' :: s, rfl, .raw h3 h4 h5 hs⟩
                · simp at h2
          · simp at h
  obtain ⟨s, rfl, hs⟩ := key _ j _ (Nat.le_refl _) hm
  exact ⟨s, by simp, hs⟩

theorem wide_write {s : Str} {ws : List Nat}
    (h : TextRead (fun c => [c.toNat]) (fun n u => u = [n]) s ws)
    (r : Str) : parseWide ('"' :: s ++ '"' :: r) = some (ws, r) := by
  have key : many0 wideP (s ++ '"' :: r) = some (ws, '"' :: r) := by
    induction h with
    | nil => exact many0_none (wideP_quote r)
    | @raw c s es h1 h2 h3 _ ih =>
      refine many0_some shrinks_wideP (a := c.toNat) (r := s ++ '"' :: r) ?_ (by simp) ih
      show or _ _ (c :: (s ++ '"' :: r)) = _
      rw [or_right (escapedChar_none h1)]
      exact map_some (by simp only [satisfy, plainC_iff.2 ⟨h1, h2, h3⟩, if_true])
    | @esc t' n s u us he hu _ ih =>
      subst hu
      have hP : wideP (t' ++ (s ++ '"' :: r)) = some (n, s ++ '"' :: r) :=
        or_left (escaped_write (escRead_follow he (noDigit_stop quote_noDigit s r).2))
      rw [List.append_assoc]
      refine many0_some shrinks_wideP hP ?_ ih
      have := escRead_pos he
      rw [List.length_append (as := t')]
      omega
  have := quoted (F := id) key
  rw [map_id_parser] at this
  exact this

/-! ## C102 -/

/-- The string literals the library reads. -/
inductive Spec.StringRead : Str → LitString → Prop
  | ordinary {s bs} : TextRead String.utf8EncodeChar EscBytes s bs →
      StringRead (strToken .none s) (.ordinary bs)
  | utf8 {s} {cs : Str} :
      TextRead String.utf8EncodeChar EscBytes s (cs.flatMap String.utf8EncodeChar) →
      StringRead (strToken .u8 s) (.utf8 cs)
  | utf16 {s} {cs : Str} : TextRead encode16 EscUnits16 s (cs.flatMap encode16) →
      StringRead (strToken .u s) (.utf16 cs)
  | utf32 {s cs} : TextRead (fun c => [c]) EscChar s cs → StringRead (strToken .U s) (.utf32 cs)
  | wide {s ws} : TextRead (fun c => [c.toNat]) (fun n u => u = [n]) s ws →
      StringRead (strToken .L s) (.wide ws)

theorem strToken_eq (p : Prefix) (s : Str) : strToken p s = p.text ++ ('"' :: s ++ '"' :: []) := by
  simp [strToken]

/-- **C102**: a token is read as a string exactly when it is a prefix and a text between double
quotes in which every `\` begins a simple escape, one to three octal digits, `x` or `X` and two
hexadecimal digits, `u` and four or `U` and eight, every number in it can be represented, and
the units so collected are the encoding of a text; and it is read as these units. -/
theorem C102_strings (t : Str) (v : LitString) :
    Lit.tryFrom t = some (.string v) ↔ Spec.StringRead t v := by
  constructor
  · intro h
    unfold Lit.tryFrom allConsuming at h
    have h1 : Lit.parseStr t = some (.string v, []) := by
      split at h
      · rename_i hp
        simp only [Option.map_some, Option.some.injEq] at h
        rw [hp, h]
      · simp at h
    have h2 : LitString.parseStr t = some (v, []) := by
      rcases or_inv h1 with h | ⟨-, h⟩
      · obtain ⟨_, -, h⟩ := map_inv h; simp at h
      · rcases or_inv h with h | ⟨-, h⟩
        · obtain ⟨v', h, h'⟩ := map_inv h
          simp only [Lit.string.injEq] at h'
          rw [h', h]
        · rcases or_inv h with h | ⟨-, h⟩
          · obtain ⟨_, -, h⟩ := map_inv h; simp at h
          · obtain ⟨_, -, h⟩ := map_inv h; simp at h
    have pre : ∀ {p : Str} {i r : Str} {u : Unit}, tag p i = some (u, r) → i = p ++ r := by
      intro p
      induction p with
      | nil => intro i r u h; simp [tag] at h; simp [h]
      | cons c p ih =>
        intro i r u h
        cases i with
        | nil => simp [tag] at h
        | cons x i =>
          simp only [tag] at h
          split at h
          · rename_i hx
            rw [hx, ih h]; rfl
          · simp at h
    rcases or_inv h2 with h | ⟨-, h⟩
    · obtain ⟨bs, h3, rfl⟩ := map_inv h
      obtain ⟨s, rfl, hs⟩ := ordinary_read h3
      have := Spec.StringRead.ordinary hs
      rwa [strToken_eq] at this
    · rcases or_inv h with h | ⟨-, h⟩
      · obtain ⟨_, j, h0, h⟩ := preceded_inv h
        obtain ⟨cs, h3, rfl⟩ := map_inv h
        obtain ⟨bs, h3, h4⟩ := mapOpt_inv h3
        obtain ⟨s, rfl, hs⟩ := ordinary_read h3
        rw [utf8Dec_sound _ _ _ (Nat.le_refl _) h4] at hs
        have := Spec.StringRead.utf8 hs
        rw [strToken_eq] at this
        rw [pre h0]
        exact this
      · rcases or_inv h with h | ⟨-, h⟩
        · obtain ⟨_, j, h0, h⟩ := preceded_inv h
          obtain ⟨cs, h3, rfl⟩ := map_inv h
          obtain ⟨s, rfl, hs⟩ := utf16_read h3
          have := Spec.StringRead.utf16 hs
          rw [strToken_eq] at this
          rw [pre h0]
          exact this
        · rcases or_inv h with h | ⟨-, h⟩
          · obtain ⟨_, j, h0, h⟩ := preceded_inv h
            obtain ⟨cs, h3, rfl⟩ := map_inv h
            obtain ⟨s, rfl, hs⟩ := utf32_read h3
            have := Spec.StringRead.utf32 hs
            rw [strToken_eq] at this
            rw [pre h0]
            exact this
          · obtain ⟨_, j, h0, h⟩ := preceded_inv h
            obtain ⟨ws, h3, rfl⟩ := map_inv h
            obtain ⟨s, rfl, hs⟩ := wide_read h3
            have := Spec.StringRead.wide hs
            rw [strToken_eq] at this
            rw [pre h0]
            exact this
  · intro h
    have key : ∀ (p : Prefix) (s : Str),
        LitString.parseStr (p.text ++ '"' :: (s ++ ['"'])) = some (v, []) →
        Lit.tryFrom (strToken p s) = some (.string v) := by
      intro p s hs
      have e : strToken p s = p.text ++ '"' :: (s ++ ['"']) := by simp [strToken]
      rw [e]
      exact lit_string (litChar_dquote p _) hs
    cases h with
    | @ordinary s bs h =>
      refine key .none _ ?_
      rw [litString_eq .none]
      exact map_some (ordinary_write h [])
    | @utf8 s cs h =>
      refine key .u8 _ ?_
      rw [litString_eq .u8]
      refine map_some (mapOpt_some (ordinary_write h []) ?_)
      rw [← utf8Dec_encStr cs]
      congr 2
      funext c
      exact (utf8Enc_eq c).symm
    | @utf16 s cs h =>
      refine key .u _ ?_
      rw [litString_eq .u]
      exact map_some (utf16_write h [])
    | @utf32 s cs h =>
      refine key .U _ ?_
      rw [litString_eq .U]
      exact map_some (utf32_write h [])
    | @wide s ws h =>
      refine key .L _ ?_
      rw [litString_eq .L]
      exact map_some (wide_write h [])

/-- **C102**: a token is read as a character exactly when it is a prefix and, between single
quotes, one character or one such escape, and its number fits the prefix; and it is read as this
number. -/
theorem C102_chars (t : Str) (v : LitChar) :
    Lit.tryFrom t = some (.char v) ↔
      ∃ p s n, t = chrToken p s ∧ CharRead s n ∧ n ≤ p.max ∧ v = p.lit n := by
  have wp : ∀ (p : Prefix) (n : Nat), n < 2 ^ 32 → LitChar.withPrefix p.parsed n =
      if n ≤ p.max then some (p.lit n) else none := by
    intro p n hn
    cases p <;> simp only [LitChar.withPrefix, Prefix.parsed, Prefix.max, Prefix.lit]
    all_goals try rfl
    all_goals exact (if_pos (show n ≤ 0xffffffff by omega)).symm
  constructor
  · intro h
    unfold Lit.tryFrom allConsuming at h
    have h1 : Lit.parseStr t = some (.char v, []) := by
      split at h
      · rename_i hp
        simp only [Option.map_some, Option.some.injEq] at h
        rw [hp, h]
      · simp at h
    have h2 : LitChar.parseStr t = some (v, []) := by
      rcases or_inv h1 with h | ⟨-, h⟩
      · obtain ⟨v', h, h'⟩ := map_inv h
        simp only [Lit.char.injEq] at h'
        rw [h', h]
      · rcases or_inv h with h | ⟨-, h⟩
        · obtain ⟨_, -, h⟩ := map_inv h; simp at h
        · rcases or_inv h with h | ⟨-, h⟩
          · obtain ⟨_, -, h⟩ := map_inv h; simp at h
          · obtain ⟨_, -, h⟩ := map_inv h; simp at h
    obtain ⟨⟨q, n⟩, h3, h4⟩ := mapOpt_inv h2
    obtain ⟨r, h5, h6⟩ := seq_inv h3
    have hn := parseUnprefixed_lt h6
    have hs : ∃ s, r = '\'' :: s ++ ['\''] ∧ CharRead s n := by
      obtain ⟨⟨n', _⟩, h7, h8⟩ := map_inv h6
      obtain ⟨r', h9, h10⟩ := seq_inv h7
      obtain ⟨_, j, h11, h12⟩ := preceded_inv h9
      rw [tag_one h11]
      rw [tag_one h10] at h12
      simp only at h8
      subst h8
      rcases or_inv h12 with h | ⟨-, h⟩
      · obtain ⟨t, rfl, ht⟩ := escaped_read h
        exact ⟨t, by simp, .esc (escRead_follow ht (noDigit_stop squote_noDigit [] []).1)⟩
      · obtain ⟨c, h13, h14⟩ := map_inv h
        simp only at h14
        subst h14
        cases j with
        | nil => simp [unescapedChar, satisfy] at h13
        | cons c' j =>
          simp only [unescapedChar, satisfy] at h13
          split at h13
          · rename_i hc
            simp only [Option.some.injEq, Prod.mk.injEq] at h13
            obtain ⟨rfl, rfl⟩ := h13
            simp only [Bool.and_eq_true, bne_iff_ne] at hc
            exact ⟨[c'], rfl, .raw hc.1.1 hc.1.2 hc.2⟩
          · simp at h13
    obtain ⟨s, rfl, hs⟩ := hs
    have hp : ∃ p : Prefix, p.parsed = q ∧ t = p.text ++ ('\'' :: s ++ ['\'']) := by
      have pre : ∀ {p : Str} {i r : Str} {u : Unit}, tag p i = some (u, r) → i = p ++ r := by
        intro p
        induction p with
        | nil => intro i r u h; simp [tag] at h; simp [h]
        | cons c p ih =>
          intro i r u h
          cases i with
          | nil => simp [tag] at h
          | cons x i =>
            simp only [tag] at h
            split at h
            · rename_i hx
              rw [hx, ih h]; rfl
            · simp at h
      unfold opt at h5
      split at h5
      · rename_i a r' ha
        simp only [Option.some.injEq, Prod.mk.injEq] at h5
        obtain ⟨rfl, rfl⟩ := h5
        rcases or_inv ha with h | ⟨-, h⟩
        · obtain ⟨_, h', rfl⟩ := map_inv h
          exact ⟨.u8, rfl, pre h'⟩
        · rcases or_inv h with h | ⟨-, h⟩
          · obtain ⟨_, h', rfl⟩ := map_inv h
            exact ⟨.u, rfl, pre h'⟩
          · rcases or_inv h with h | ⟨-, h⟩
            · obtain ⟨_, h', rfl⟩ := map_inv h
              exact ⟨.U, rfl, pre h'⟩
            · obtain ⟨_, h', rfl⟩ := map_inv h
              exact ⟨.L, rfl, pre h'⟩
      · simp only [Option.some.injEq, Prod.mk.injEq] at h5
        obtain ⟨rfl, rfl⟩ := h5
        exact ⟨.none, rfl, rfl⟩
    obtain ⟨p, rfl, rfl⟩ := hp
    simp only at h4
    rw [wp p n hn] at h4
    split at h4
    · rename_i hle
      simp only [Option.some.injEq] at h4
      exact ⟨p, s, n, by simp [chrToken], hs, hle, h4.symm⟩
    · simp at h4
  · rintro ⟨p, s, n, rfl, hs, hle, rfl⟩
    have h1 : or escapedChar (map unescapedChar Char.toNat) (s ++ ['\'']) =
        some (n, ['\'']) := by
      cases hs with
      | @raw c h1 h2 h3 =>
        show or _ _ (c :: ['\'']) = _
        rw [or_right (escapedChar_none h1)]
        exact map_some (by simp [unescapedChar, satisfy, h1, h2, h3])
      | esc he =>
        exact or_left (escaped_write (escRead_follow he (noDigit_stop squote_noDigit [] []).2))
    have h2 : LitChar.parseUnprefixed ('\'' :: (s ++ ['\''])) = some (n, []) := by
      have h3 := preceded_some (p := tag c!"'") (i := '\'' :: (s ++ ['\'']))
        (a := ()) (r := s ++ ['\'']) (by simp [tag]) h1
      exact map_some (seq_some (a := n) (r := ['\'']) (b := ()) h3 (by simp [tag]))
    have hn := parseUnprefixed_lt h2
    refine lit_char ?_
    have e : chrToken p s = p.text ++ '\'' :: (s ++ ['\'']) := by simp [chrToken]
    rw [e]
    refine mapOpt_some (seq_some (opt_charPrefix p _) h2) ?_
    simp only
    rw [wp p n hn, if_pos hle]

/-- A third hexadecimal digit is a character of its own. -/
example : Lit.tryFrom c!"\"\\x414\"" = some (.string (.ordinary [0x41, 0x34])) :=
  (C102_strings _ _).2 (.ordinary (s := c!"\\x414")
    (.esc (t := c!"\\x41") (s := c!"4") (u := [0x41]) (us := [0x34])
      (.hex (ds := [4, 1]) (s := c!"41") (.inl rfl)
        (.cons ⟨by decide, .inl (by decide)⟩ (.cons ⟨by decide, .inl (by decide)⟩ .nil)) rfl)
      (.byte (n := 0x41) (by decide))
      (.raw (us := []) (by decide) (by decide) (by decide) .nil)))

/-- A single one is not accepted. -/
example : ¬ ∃ v, Spec.StringRead c!"\"\\x1\"" v := by
  rintro ⟨v, h⟩
  have := (C102_strings _ _).2 h
  rw [show Lit.tryFrom c!"\"\\x1\"" = none from by decide +kernel] at this
  simp at this

/-- Escapes may spell a surrogate pair in a `u` string. -/
example : Spec.StringRead c!"u\"a\\ud83c\\udf4c\"" (.utf16 ['a', '🍌']) :=
  (C102_strings _ _).1 (by decide +kernel)

/-- Escapes may spell UTF-8 in a `u8` string. -/
example : Spec.StringRead c!"u8\"\\303\\251\"" (.utf8 ['é']) :=
  (C102_strings _ _).1 (by decide +kernel)

example : Lit.tryFrom c!"L'\\X7f'" = some (.char (.wide 0x7f)) :=
  (C102_chars _ _).2 ⟨.L, c!"\\X7f", 0x7f, rfl,
    .esc (.hex (ds := [7, 15]) (s := c!"7f") (.inr rfl)
      (.cons ⟨by decide, .inl (by decide)⟩ (.cons ⟨by decide, .inr (by decide)⟩ .nil)) rfl),
    by decide, rfl⟩

end CMacro
