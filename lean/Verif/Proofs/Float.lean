import Verif.Spec.Float
import Verif.Proofs.Number
import Verif.Proofs.Paste

/-! # Floating constants -/

namespace CMacro
open Parser Spec

theorem decimal_digit {c : Char} : isDigit 10 c = true ↔ 48 ≤ c.toNat ∧ c.toNat ≤ 57 := by
  rw [isDigit_iff]
  constructor
  · rintro ⟨d, h1, h2⟩
    omega
  · intro h
    exact ⟨c.toNat - 48, by omega, .inl (by omega)⟩

theorem decimal_run {s : Str} : Decimal s ↔ ∀ c ∈ s, isDigit 10 c = true := by
  simp only [Decimal, decimal_digit]

theorem digit1_inv {i r s : Str} (h : digit1 i = some (s, r)) : i = s ++ r ∧ Decimal s ∧ s ≠ [] := by
  have h1 := takeWhile1_inv h
  refine ⟨h1.1, decimal_run.2 h1.2, ?_⟩
  rintro rfl
  unfold digit1 takeWhile1 at h
  split at h
  · simp at h
  · rename_i hne
    simp only [Option.some.injEq, Prod.mk.injEq] at h
    exact hne (by rw [h.1]; rfl)

theorem digit1_run {s t : Str} (hs : Decimal s) (hne : s ≠ []) (ht : NoStart (isDigit 10) t) :
    digit1 (s ++ t) = some (s, t) := takeWhile1_run (decimal_run.1 hs) hne ht

theorem dot_inv {i r : Str} {u : Unit} (h : tag c!"." i = some (u, r)) : i = '.' :: r := by
  match i with
  | [] => simp [tag] at h
  | c :: i =>
    simp only [tag] at h
    split at h
    · rename_i hc
      simp only [Option.some.injEq, Prod.mk.injEq] at h
      rw [hc, h.2]
    · simp at h

theorem dot_run (r : Str) : tag c!"." ('.' :: r) = some ((), r) := by simp [tag]

theorem satisfy_inv {f : Char → Bool} {i r : Str} {c : Char} (h : satisfy f i = some (c, r)) : i = c :: r ∧ f c = true := by
  match i with
  | [] => simp [satisfy] at h
  | d :: i =>
    simp only [satisfy] at h
    split at h
    · rename_i hd
      simp only [Option.some.injEq, Prod.mk.injEq] at h
      obtain ⟨rfl, rfl⟩ := h
      exact ⟨rfl, hd⟩
    · simp at h

theorem floatDecimal_inv {i r s : Str} (h : floatDecimal i = some (s, r)) : ∃ b, s = '.' :: b ∧ i = s ++ r ∧ Decimal b ∧ b ≠ [] := by
  obtain ⟨⟨u, d⟩, h0, rfl⟩ := map_inv h
  obtain ⟨r', h1, h2⟩ := seq_inv h0
  obtain ⟨h3, h4, h5⟩ := digit1_inv h2
  exact ⟨d, rfl, by rw [dot_inv h1, h3]; rfl, h4, h5⟩

theorem floatScientific_inv {i r s : Str} (h : floatScientific i = some (s, r)) : i = s ++ r ∧ ExponentPart s := by
  obtain ⟨⟨e, sg, d⟩, h0, rfl⟩ := map_inv h
  obtain ⟨r', h1, h2⟩ := seq_inv h0
  obtain ⟨r'', h3, h4⟩ := seq_inv h2
  obtain ⟨h5, h6, h7⟩ := digit1_inv h4
  obtain ⟨h8, h9⟩ := satisfy_inv h1
  simp only at h3 h5 h6 h7 h8 h9
  have he : e = 'e' ∨ e = 'E' := by simpa using h9
  rcases opt_inv h3 with ⟨rfl, rfl, _⟩ | ⟨c, rfl, h10⟩
  · exact ⟨by rw [h8, h5]; simp, .mk (sign := []) he (by simp) h6 h7⟩
  · obtain ⟨h11, h12⟩ := satisfy_inv h10
    have hc : c = '+' ∨ c = '-' := by simpa using h12
    exact ⟨by rw [h8, h11, h5]; simp, .mk (sign := [c]) he (by rcases hc with rfl | rfl <;> simp) h6 h7⟩

theorem exponent_scientific {x u : Str} (h : ExponentPart x) (hu : NoStart (isDigit 10) u) :
    floatScientific (x ++ u) = some (x, u) := by
  cases h with
  | @mk c sign ds hc hs hd hne =>
    have h1 : satisfy (fun c => c == 'e' || c == 'E') (c :: (sign ++ ds ++ u)) = some (c, sign ++ ds ++ u) := by
      rcases hc with rfl | rfl <;> simp [satisfy]
    have h3 := digit1_run hd hne hu
    simp only [List.mem_cons, List.not_mem_nil, or_false] at hs
    have key : ∀ o : Option Char, sign = o.toList → opt floatSign (sign ++ ds ++ u) = some (o, ds ++ u) →
        floatScientific (c :: (sign ++ ds) ++ u) = some (c :: (sign ++ ds), u) := by
      intro o ho h2
      have := map_some (f := fun (x : Char × Option Char × Str) => x.1 :: x.2.1.toList ++ x.2.2) (seq_some h1 (seq_some h2 h3))
      simpa [floatScientific, ho] using this
    rcases hs with rfl | rfl | rfl
    · refine key none rfl ?_
      cases ds with
      | nil => exact absurd rfl hne
      | cons d ds =>
        have hdd := hd d List.mem_cons_self
        have : floatSign (d :: (ds ++ u)) = none := by
          simp only [floatSign, satisfy]
          rw [if_neg]
          simp only [Bool.or_eq_true, beq_iff_eq]
          rintro (rfl | rfl) <;> exact absurd hdd (by decide)
        simp [opt, this]
    · exact key (some '+') rfl (by simp [opt, floatSign, satisfy])
    · exact key (some '-') rfl (by simp [opt, floatSign, satisfy])

theorem exponent_head {x u : Str} {f : Char → Bool} (h : ExponentPart x) (he : f 'e' = false) (hE : f 'E' = false) :
    NoStart f (x ++ u) := by
  cases h with
  | @mk c sign ds hc hs hd hne =>
    rintro d r hr
    simp only [List.cons_append, List.cons.injEq] at hr
    rcases hc with rfl | rfl
    · rw [← hr.1, he]
    · rw [← hr.1, hE]

theorem dot_none {u : Str} (hu : NoStart (· == '.') u) : tag c!"." u = none := by
  cases u with
  | nil => simp [tag]
  | cons c r =>
    have := hu c r rfl
    simp only [beq_eq_false_iff_ne] at this
    simp [tag, Ne.symm this]

theorem scientific_none {u : Str} (hu : NoStart (fun c => c == 'e' || c == 'E') u) : floatScientific u = none := by
  refine map_none (seq_none ?_)
  cases u with
  | nil => simp [satisfy]
  | cons c r => simp only [satisfy, hu c r rfl]; rfl

theorem floatRepr_inv {i r s : Str} (h : floatRepr i = some (s, r)) : i = s ++ r ∧ DecFloat s := by
  rcases or_inv h with h | ⟨-, h⟩
  · obtain ⟨⟨a, b⟩, h0, rfl⟩ := map_inv h
    obtain ⟨r', h1, h2⟩ := seq_inv h0
    have hx : ∃ x, b.getD [] = x ∧ r' = x ++ r ∧ (x = [] ∨ ExponentPart x) := by
      rcases opt_inv h2 with ⟨h3, h4, _⟩ | ⟨x, h3, h4⟩
      · simp only at h3; subst h3; exact ⟨[], rfl, by simp [h4], .inl rfl⟩
      · simp only at h3; subst h3
        obtain ⟨h5, h6⟩ := floatScientific_inv h4
        exact ⟨x, rfl, h5, .inr h6⟩
    obtain ⟨x, hb, rfl, hx⟩ := hx
    simp only [hb] at *
    rcases or_inv h1 with h1 | ⟨-, h1⟩
    · obtain ⟨⟨d, e⟩, h3, rfl⟩ := map_inv h1
      obtain ⟨r'', h4, h5⟩ := seq_inv h3
      obtain ⟨b', hb', h6, h7, h8⟩ := floatDecimal_inv h5
      simp only at hb' h6 h4
      subst hb' h6
      rcases opt_inv h4 with ⟨h9, h10, _⟩ | ⟨y, h9, h10⟩
      · subst h9 h10
        exact ⟨by simp, by simpa using DecFloat.fraction (a := []) (by simp [Decimal]) h7 (.inr h8) hx⟩
      · obtain ⟨rfl, h12, h13⟩ := digit1_inv h10
        subst h9
        exact ⟨by simp, by simpa using DecFloat.fraction h12 h7 (.inr h8) hx⟩
    · obtain ⟨⟨d, e⟩, h3, rfl⟩ := map_inv h1
      obtain ⟨r'', h4, h5⟩ := seq_inv h3
      obtain ⟨rfl, h7, h8⟩ := digit1_inv h4
      have := dot_inv h5
      simp only at this h7 h8
      subst this
      exact ⟨by simp, by simpa using DecFloat.fraction (b := []) h7 (by simp [Decimal]) (.inl h8) hx⟩
  · obtain ⟨⟨a, b⟩, h0, rfl⟩ := map_inv h
    obtain ⟨r', h1, h2⟩ := seq_inv h0
    obtain ⟨rfl, h4, h5⟩ := digit1_inv h1
    obtain ⟨h6, h7⟩ := floatScientific_inv h2
    simp only at h6
    subst h6
    exact ⟨by simp, .whole h4 h5 h7⟩

theorem decFloat_repr {t u : Str} (h : DecFloat t) (hd : NoStart (isDigit 10) u)
    (he : NoStart (fun c => c == 'e' || c == 'E') u) : floatRepr (t ++ u) = some (t, u) := by
  cases h with
  | @fraction a b x ha hb hne hx =>
    have hxu : NoStart (isDigit 10) (x ++ u) := by
      rcases hx with rfl | hx
      · simpa using hd
      · exact exponent_head hx (by decide) (by decide)
    have hsci : opt floatScientific (x ++ u) = some (if x = [] then none else some x, u) := by
      rcases hx with rfl | hx
      · simp [opt, scientific_none he]
      · have hne : x ≠ [] := by rintro rfl; cases hx
        simp [opt, exponent_scientific hx hd, hne]
    have hdot : NoStart (isDigit 10) ('.' :: (b ++ x ++ u)) := by
      intro c r hc
      simp only [List.cons.injEq] at hc
      rw [← hc.1]; decide
    have hfirst : or (map (seq (opt digit1) floatDecimal) fun (a, b) => a.getD [] ++ b)
        (map (seq digit1 (tag c!".")) fun (a, _) => a ++ ['.']) (a ++ '.' :: (b ++ x ++ u)) = some (a ++ '.' :: b, x ++ u) := by
      have hopt : opt digit1 (a ++ '.' :: (b ++ x ++ u)) = some (if a = [] then none else some a, '.' :: (b ++ x ++ u)) := by
        by_cases h0 : a = []
        · subst h0
          simp only [opt, List.nil_append, digit1, takeWhile1_stop hdot, if_true]
        · simp only [opt, digit1_run ha h0 hdot, if_neg h0]
      by_cases hb0 : b = []
      · subst hb0
        have ha0 : a ≠ [] := by simpa using hne
        have h1 : floatDecimal ('.' :: (x ++ u)) = none :=
          map_none (seq_none' (dot_run _) (takeWhile1_stop hxu))
        rw [or_right (map_none (seq_none' hopt (by simpa using h1)))]
        exact map_some (f := fun (x : Str × Unit) => x.1 ++ ['.'])
          (seq_some (digit1_run ha ha0 hdot) (by simpa using dot_run (x ++ u)))
      · have h1 : floatDecimal ('.' :: (b ++ x ++ u)) = some ('.' :: b, x ++ u) := by
          have := map_some (f := fun (x : Unit × Str) => '.' :: x.2) (seq_some (dot_run (b ++ x ++ u))
            (show digit1 (b ++ x ++ u) = _ by rw [List.append_assoc]; exact digit1_run hb hb0 hxu))
          simpa [floatDecimal] using this
        have h2 := map_some (f := fun (x : Option Str × Str) => x.1.getD [] ++ x.2) (seq_some hopt h1)
        refine or_left (h2.trans ?_)
        by_cases h0 : a = [] <;> simp [h0]
    have h2 := map_some (f := fun (x : Str × Option Str) => x.1 ++ x.2.getD []) (seq_some hfirst hsci)
    rw [show a ++ '.' :: (b ++ x) ++ u = a ++ '.' :: (b ++ x ++ u) by simp]
    refine or_left (h2.trans ?_)
    by_cases h0 : x = [] <;> simp [h0]
  | @whole a x ha hne hx =>
    rw [List.append_assoc]
    have h1 := digit1_run ha hne (exponent_head hx (u := u) (f := isDigit 10) (by decide) (by decide))
    have hdot : tag c!"." (x ++ u) = none := dot_none (exponent_head hx (by decide) (by decide))
    have h2 : floatDecimal (x ++ u) = none := map_none (seq_none hdot)
    have h3 : opt digit1 (a ++ (x ++ u)) = some (some a, x ++ u) := by simp [opt, h1]
    rw [floatRepr, or_right (map_none (seq_none (by
      rw [or_right (map_none (seq_none' h3 h2))]
      exact map_none (seq_none' h1 hdot))))]
    exact map_some (f := fun (x : Str × Str) => x.1 ++ x.2) (seq_some h1 (exponent_scientific hx hd))

theorem lit_dot_head (r : Str) :
    Lit.parseStr ('.' :: r) = or (map LitFloat.parseStr Lit.float) (map LitInt.parseStr Lit.int) ('.' :: r) := by
  have h1 : LitChar.parseStr ('.' :: r) = none := by
    simp [LitChar.parseStr, mapOpt, seq, opt, charPrefix, Parser.or, Parser.map, tag, LitChar.parseUnprefixed,
      delimited, terminated, preceded]
  have h2 : LitString.parseStr ('.' :: r) = none := by
    simp [LitString.parseStr, parseOrdinary, Parser.or, Parser.map, tag, delimited, terminated, preceded, seq, dquote]
  rw [Lit.parseStr, or_right (map_none h1), or_right (map_none h2)]

theorem decFloat_head {t : Str} (h : DecFloat t) : ∃ c r, t = c :: r ∧ (c = '.' ∨ isDigit 10 c = true) := by
  have key : ∀ a : Str, a ≠ [] → Decimal a → ∀ u, ∃ c r, a ++ u = c :: r ∧ (c = '.' ∨ isDigit 10 c = true) := by
    intro a hne ha u
    cases a with
    | nil => exact absurd rfl hne
    | cons c a => exact ⟨c, a ++ u, rfl, .inr (decimal_digit.2 (ha c List.mem_cons_self))⟩
  cases h with
  | @fraction a b x ha hb hne hx =>
    by_cases h0 : a = []
    · subst h0; exact ⟨'.', b ++ x, rfl, .inl rfl⟩
    · exact key a h0 ha _
  | @whole a x ha hne hx => exact key a hne ha _

end CMacro
