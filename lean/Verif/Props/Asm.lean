import Verif.Model.ParseStmt
import Verif.Spec.Asm
import Verif.Proofs.Number
import Verif.Proofs.Paste

/-!
# Property C44: templates of inline assembly
-/

namespace CMacro
open Parser

/-- **C44**: the lines made from a template mean what the template means. -/
def C44_statement : Prop := ∀ (s : Str) (ps : List Spec.Piece), Spec.CTemplate s ps →
  (∀ n, .operand n ∈ ps → n < 2 ^ 64) →
  ∃ ls pss, parseTemplate s = some ls ∧ Spec.Lines ps pss ∧ Spec.SameLines ls pss

/-- The template `a{` keeps its brace, and `%%` is not accepted at all. -/
theorem C44_false : ¬ C44_statement ∧
    parseTemplate c!"a{" = some [c!"a{"] ∧ (¬ ∃ ps, Spec.RustTemplate c!"a{" ps) ∧
    Spec.CTemplate c!"%%" [.char '%'] ∧ parseTemplate c!"%%" = none := by
  have h1 : parseTemplate c!"a{" = some [c!"a{"] := by decide +kernel
  have h2 : ¬ ∃ ps, Spec.RustTemplate c!"a{" ps := by
    rintro ⟨ps, h⟩
    cases h with
    | text _ _ h =>
      generalize hs : ['{'] = s at h
      cases h with
      | nil => cases hs
      | text h => cases hs; exact h rfl
      | opening => cases hs
      | closing => cases hs
      | operand hne =>
        rename_i ds _ _ _
        cases ds <;> simp at hs
  refine ⟨fun h => ?_, h1, h2, .percent .nil, by decide +kernel⟩
  obtain ⟨ls, pss, h3, _, h4⟩ := h c!"a{" [.char 'a', .char '{'] (.text (by decide) (.text (by decide) .nil)) (by simp)
  rw [h1] at h3
  cases h3
  cases h4 with
  | cons _ h => exact h2 ⟨_, h⟩

theorem isDigit10_eq (c : Char) : isDigit 10 c = c.isDigit := by
  rw [Bool.eq_iff_iff, isDigit_iff]
  have e : c.toNat = c.val.toNat := rfl
  simp only [Char.isDigit, Bool.and_eq_true, decide_eq_true_eq, ge_iff_le, UInt32.le_iff_toNat_le]
  constructor
  · rintro ⟨d, h1, h2⟩
    have : ('0' : Char).val.toNat = 48 ∧ ('9' : Char).val.toNat = 57 := by decide
    omega
  · intro h
    have : ('0' : Char).val.toNat = 48 ∧ ('9' : Char).val.toNat = 57 := by decide
    exact ⟨c.toNat - 48, by omega, by omega⟩

theorem isAlpha_eq (c : Char) : (('a' ≤ c && c ≤ 'z') || ('A' ≤ c && c ≤ 'Z')) = c.isAlpha := by
  rw [Bool.eq_iff_iff]
  simp only [Char.isAlpha, Char.isUpper, Char.isLower, Char.le_def, Bool.or_eq_true, Bool.and_eq_true, decide_eq_true_eq, ge_iff_le]
  have : ('a' : Char).val = 97 ∧ ('z' : Char).val = 122 ∧ ('A' : Char).val = 65 ∧ ('Z' : Char).val = 90 := by decide
  obtain ⟨h1, h2, h3, h4⟩ := this
  rw [h1, h2, h3, h4]
  exact Or.comm

theorem parseUnsigned_digits {ds : Str} (h : ∀ c ∈ ds, c.isDigit = true) {b : Nat} (hb : Nat.ofDigitChars 10 ds 0 < b) :
    parseUnsigned b ds = some (Nat.ofDigitChars 10 ds 0) := by
  have : ∀ (ds : Str) (n : Nat), (∀ c ∈ ds, c.isDigit = true) →
      ds.foldl (fun acc c => acc * 10 + (toDigit 10 c).getD 0) n = Nat.ofDigitChars 10 ds n := by
    intro ds
    induction ds with
    | nil => intro n _; simp
    | cons c ds ih =>
      intro n h
      rw [List.foldl_cons, Nat.ofDigitChars_cons, ih _ fun x hx => h x (List.mem_cons_of_mem _ hx)]
      have hc := h c List.mem_cons_self
      rw [← isDigit10_eq] at hc
      obtain ⟨d, hd⟩ := isDigit_iff.1 hc
      rw [toDigit_eq_some.2 hd]
      obtain ⟨h1, h2⟩ := hd
      have : '0'.toNat = 48 := rfl
      congr 1
      simp only [Option.getD_some]
      omega
  unfold parseUnsigned
  simp only [this ds 0 h, hb, if_true]

theorem Spec.CTemplate.split {ps : List Spec.Piece} : ∀ {a b : Str}, (∀ c ∈ a, c ≠ '%') → Spec.CTemplate (a ++ b) ps →
    ∃ qs, ps = a.map .char ++ qs ∧ Spec.CTemplate b qs
  | [], b, _, h => ⟨ps, rfl, h⟩
  | c :: a, b, ha, h => by
    have hc := ha c List.mem_cons_self
    generalize hs : c :: a ++ b = s at h
    cases h with
    | nil => cases hs
    | text _ h =>
      cases hs
      obtain ⟨qs, rfl, hq⟩ := h.split fun x hx => ha x (List.mem_cons_of_mem _ hx)
      exact ⟨qs, rfl, hq⟩
    | percent => simp at hs; exact absurd hs.1 hc
    | operand => simp at hs; exact absurd hs.1 hc
    | reg => simp at hs; exact absurd hs.1 hc

theorem Spec.RustTemplate.prepend {ps : List Spec.Piece} {b : Str} (h : Spec.RustTemplate b ps) : ∀ {a : Str},
    (∀ c ∈ a, c ≠ '{' ∧ c ≠ '}') → Spec.RustTemplate (a ++ b) (a.map .char ++ ps)
  | [], _ => h
  | c :: a, ha => .text (ha c List.mem_cons_self).1 (ha c List.mem_cons_self).2
      (h.prepend fun x hx => ha x (List.mem_cons_of_mem _ hx))

theorem templatePart_shrinks : Shrinks templatePart := by
  unfold templatePart alpha1
  exact .or (.preceded (.tag _) (.or (.mapOpt (.takeWhile1 _) _) (.map (.takeWhile1 _) _)))
    (.or (.map (.satisfy _) _) (.takeWhile1 _))

theorem many0_step {s r : Str} {a : Str} {as : List Str} (h : templatePart s = some (a, r)) (hl : r.length < s.length)
    (hr : many0 templatePart r = some (as, [])) : many0 templatePart s = some (a :: as, []) := by
  rw [many0_eq templatePart_shrinks, h]
  simp only [hr]
  rw [if_neg (by omega)]

theorem braced_template {n : Nat} {s : Str} {ps : List Spec.Piece} (h : Spec.RustTemplate s ps) :
    Spec.RustTemplate (braced n ++ s) (.operand n :: ps) := by
  have h1 : (toString n).toList = Nat.toDigits 10 n := by
    rw [Nat.toString_eq_ofList_toDigits]; simp
  have h2 := Spec.RustTemplate.operand (ds := Nat.toDigits 10 n) Nat.toDigits_ne_nil
    (fun c hc => Nat.isDigit_of_mem_toDigits (by omega) (by omega) hc) h
  rw [Nat.ofDigitChars_ten_toDigits] at h2
  unfold braced
  rw [h1]
  simpa using h2

theorem template_parts : ∀ (n : Nat) (s : Str) (ps : List Spec.Piece), s.length ≤ n → Spec.CTemplate s ps →
    (∀ c ∈ s, c ≠ '{' ∧ c ≠ '}') → (∀ a b, s ≠ a ++ '%' :: '%' :: b) → (∀ k, .operand k ∈ ps → k < 2 ^ 64) →
    ∃ parts, many0 templatePart s = some (parts, []) ∧ Spec.RustTemplate parts.flatten ps
  | 0, s, ps, hn, h, _, _, _ => by
    have : s = [] := List.eq_nil_of_length_eq_zero (by omega)
    subst this
    generalize hs : ([] : Str) = s at h
    cases h with
    | nil => exact ⟨[], by decide +kernel, .nil⟩
    | _ => simp at hs
  | n + 1, s, ps, hn, h, hb, hp, ho => by
    cases h with
    | nil => exact ⟨[], by decide +kernel, .nil⟩
    | @text c s ps hc h =>
      have hsp : c :: s = (c :: s).takeWhile (fun c => c ≠ '%') ++ (c :: s).dropWhile (fun c => c ≠ '%') :=
        (List.takeWhile_append_dropWhile).symm
      have htw : (c :: s).takeWhile (fun c => c ≠ '%') = c :: s.takeWhile (fun c => c ≠ '%') := by
        simp [List.takeWhile_cons, hc]
      have hdw : (c :: s).dropWhile (fun c => c ≠ '%') = s.dropWhile (fun c => c ≠ '%') := by
        simp [List.dropWhile_cons, hc]
      have hall : ∀ x ∈ s.takeWhile (fun c => c ≠ '%'), x ≠ '%' := fun x hx => by
        simpa using (List.all_eq_true.1 List.all_takeWhile) x hx
      have hs' : s = s.takeWhile (fun c => c ≠ '%') ++ s.dropWhile (fun c => c ≠ '%') := (List.takeWhile_append_dropWhile).symm
      generalize ha : s.takeWhile (fun c => c ≠ '%') = a at *
      generalize hd : s.dropWhile (fun c => c ≠ '%') = b at *
      subst hs'
      obtain ⟨qs, rfl, hq⟩ := h.split hall
      obtain ⟨parts, h1, h2⟩ := template_parts n b qs (by simp at hn; omega) hq
        (fun x hx => hb x (by simp [hx])) (fun x y hxy => hp (c :: a ++ x) y (by simp [hxy]))
        (fun k hk => ho k (by simp [hk]))
      refine ⟨(c :: a) :: parts, many0_step (r := b) ?_ (by simp; omega) h1, ?_⟩
      · have hbc := hb c List.mem_cons_self
        unfold templatePart
        have e1 : preceded (tag c!"%") (Parser.or (mapOpt (takeWhile1 (isDigit 10)) fun s => (parseUnsigned (2 ^ 64) s).map braced)
            (map alpha1 fun reg => c!"%" ++ reg)) (c :: (a ++ b)) = none := by
          simp [preceded, Parser.map, Parser.seq, tag, Ne.symm hc]
        have e2 : Parser.map (satisfy fun c => c = '{' || c = '}') (fun c => [c, c]) (c :: (a ++ b)) = none := by
          simp [Parser.map, satisfy, hbc]
        rw [Parser.or, e1, Parser.or, e2]
        simp only [takeWhile1, htw, hdw]
        simp
      · have := h2.prepend (a := c :: a) fun x hx => hb x (by
          rcases List.mem_cons.1 hx with h | h
          · exact h ▸ List.mem_cons_self
          · exact List.mem_cons_of_mem _ (List.mem_append_left _ h))
        exact this
    | @percent s ps h => exact absurd rfl (hp [] s)
    | @operand ds s ps hne hds hs h =>
      obtain ⟨parts, h1, h2⟩ := template_parts n s ps (by simp at hn; omega) h
        (fun x hx => hb x (by simp [hx])) (fun x y hxy => hp ('%' :: ds ++ x) y (by simp [hxy]))
        (fun k hk => ho k (by simp [hk]))
      have hk := ho (Nat.ofDigitChars 10 ds 0) (by simp)
      refine ⟨braced (Nat.ofDigitChars 10 ds 0) :: parts, many0_step (r := s) ?_ (by simp; omega) h1, ?_⟩
      · have e1 : takeWhile1 (isDigit 10) (ds ++ s) = some (ds, s) :=
          takeWhile1_run (fun c hc => by rw [isDigit10_eq]; exact hds c hc) hne
            (fun c r hr => by rw [isDigit10_eq]; exact hs c (by simp [hr]))
        unfold templatePart
        simp [Parser.or, preceded, Parser.map, Parser.seq, tag, mapOpt, e1, parseUnsigned_digits hds hk]
      · simpa using braced_template h2
    | @reg ls s ps hne hls hs h =>
      obtain ⟨parts, h1, h2⟩ := template_parts n s ps (by simp at hn; omega) h
        (fun x hx => hb x (by simp [hx])) (fun x y hxy => hp ('%' :: ls ++ x) y (by simp [hxy]))
        (fun k hk => ho k (by simp [hk]))
      refine ⟨('%' :: ls) :: parts, many0_step (r := s) ?_ (by simp; omega) h1, ?_⟩
      · have e1 : takeWhile1 (isDigit 10) (ls ++ s) = none := by
          refine takeWhile1_stop fun c r hr => ?_
          obtain ⟨l, ls', rfl⟩ : ∃ l ls', ls = l :: ls' := by cases ls with | nil => simp at hne | cons a b => exact ⟨a, b, rfl⟩
          simp at hr
          obtain ⟨rfl, _⟩ := hr
          have := hls l List.mem_cons_self
          rw [isDigit10_eq]
          cases hd : l.isDigit
          · rfl
          · exfalso
            simp only [Char.isAlpha, Char.isUpper, Char.isLower, Char.isDigit, Bool.or_eq_true, Bool.and_eq_true, decide_eq_true_eq,
              ge_iff_le, UInt32.le_iff_toNat_le] at this hd
            have : ('A' : Char).val.toNat = 65 ∧ ('a' : Char).val.toNat = 97 ∧ ('9' : Char).val.toNat = 57 := by decide
            omega
        have e2 : alpha1 (ls ++ s) = some (ls, s) := by
          unfold alpha1
          refine takeWhile1_run (fun c hc => by rw [isAlpha_eq]; exact hls c hc) hne fun c r hr => ?_
          have := hs c (by simp [hr])
          rw [isAlpha_eq]
          simp only [Char.isAlphanum, Bool.or_eq_false_iff] at this
          exact this.1
        unfold templatePart
        simp [Parser.or, preceded, Parser.map, Parser.seq, tag, mapOpt, e1, e2]
      · have := h2.prepend (a := '%' :: ls) fun x hx => hb x (by
          rcases List.mem_cons.1 hx with h | h
          · exact h ▸ List.mem_cons_self
          · exact List.mem_cons_of_mem _ (List.mem_append_left _ h))
        exact this

theorem isWs_iff (c : Char) : isWs c = true ↔ c.toNat ∈ Spec.whiteSpace := by
  simp only [isWs, Spec.whiteSpace, Bool.or_eq_true, Bool.and_eq_true, decide_eq_true_eq, List.mem_cons, List.not_mem_nil, or_false]
  omega

theorem Spec.RustTemplate.append {a b : Str} {ps qs : List Spec.Piece} (h : Spec.RustTemplate a ps) (h' : Spec.RustTemplate b qs) :
    Spec.RustTemplate (a ++ b) (ps ++ qs) := by
  induction h with
  | nil => exact h'
  | text h1 h2 _ ih => exact .text h1 h2 ih
  | opening _ ih => exact .opening ih
  | closing _ ih => exact .closing ih
  | operand h1 h2 _ ih => simpa using .operand h1 h2 ih

/-- Lines of text and lines of pieces. -/
inductive TLines : List Str → List (List Spec.Piece) → Prop
  | nil : TLines [] []
  | cons {l ls p ps} : Spec.RustTemplate l p → TLines ls ps → TLines (l :: ls) (p :: ps)

theorem splitLines_cons {c : Char} (hc : c ≠ '\n') (s : Str) : ∃ l ls, splitLines s = l :: ls ∧ splitLines (c :: s) = (c :: l) :: ls := by
  have : splitLines s ≠ [] := by
    cases s with
    | nil => simp [splitLines]
    | cons d s =>
      unfold splitLines
      split
      · simp
      · split <;> simp
  rcases h : splitLines s with _ | ⟨l, ls⟩
  · exact absurd h this
  · exact ⟨l, ls, rfl, by rw [splitLines, if_neg hc, h]⟩

theorem splitLines_append {a : Str} (ha : '\n' ∉ a) (s : Str) : ∃ l ls, splitLines s = l :: ls ∧ splitLines (a ++ s) = (a ++ l) :: ls := by
  induction a with
  | nil =>
    rcases h : splitLines s with _ | ⟨l, ls⟩
    · cases s with
      | nil => simp [splitLines] at h
      | cons d s =>
        unfold splitLines at h
        split at h
        · simp at h
        · split at h <;> simp at h
    · exact ⟨l, ls, rfl, h⟩
  | cons c a ih =>
    obtain ⟨l, ls, h1, h2⟩ := ih fun h => ha (List.mem_cons_of_mem _ h)
    obtain ⟨l', ls', h3, h4⟩ := splitLines_cons (c := c) (fun h => ha (h ▸ List.mem_cons_self)) (a ++ s)
    rw [h2] at h3
    cases h3
    exact ⟨l, ls, h1, h4⟩

theorem Spec.Lines.prepend {p : List Spec.Piece} (hp : .char '\n' ∉ p) {ps : List Spec.Piece} {q : List Spec.Piece} {qs}
    (h : Spec.Lines ps (q :: qs)) : Spec.Lines (p ++ ps) ((p ++ q) :: qs) := by
  cases h with
  | last h => exact .last (by simp [hp, h])
  | line h h' =>
    rw [← List.append_assoc]
    exact .line (by simp [hp, h]) h'

theorem splitLines_spec {s : Str} {ps : List Spec.Piece} (h : Spec.RustTemplate s ps) :
    ∃ pss, Spec.Lines ps pss ∧ TLines (splitLines s) pss := by
  have key : ∀ {a s : Str} {p ps : List Spec.Piece}, '\n' ∉ a → .char '\n' ∉ p → Spec.RustTemplate a p →
      (∃ pss, Spec.Lines ps pss ∧ TLines (splitLines s) pss) → ∃ pss, Spec.Lines (p ++ ps) pss ∧ TLines (splitLines (a ++ s)) pss := by
    rintro a s p ps ha hp hap ⟨pss, h1, h2⟩
    obtain ⟨l, ls, h3, h4⟩ := splitLines_append ha s
    rw [h3] at h2
    cases h2 with
    | cons h5 h6 => exact ⟨_, h1.prepend hp, by rw [h4]; exact .cons (hap.append h5) h6⟩
  induction h with
  | nil => exact ⟨[[]], .last (by simp), .cons .nil .nil⟩
  | @text c s ps h1 h2 h ih =>
    by_cases hc : c = '\n'
    · subst hc
      obtain ⟨pss, h3, h4⟩ := ih
      exact ⟨[] :: pss, .line (l := []) (by simp) h3, by rw [splitLines, if_pos rfl]; exact .cons .nil h4⟩
    · exact key (a := [c]) (p := [.char c]) (by simpa using Ne.symm hc) (by simpa using Ne.symm hc) (.text h1 h2 .nil) ih
  | opening h ih => exact key (a := ['{', '{']) (p := [.char '{']) (by decide) (by simp) (.opening .nil) ih
  | closing h ih => exact key (a := ['}', '}']) (p := [.char '}']) (by decide) (by simp) (.closing .nil) ih
  | @operand ds s ps hne hds h ih =>
    have := key (a := '{' :: ds ++ ['}']) (p := [.operand (Nat.ofDigitChars 10 ds 0)]) (by
      simp only [List.mem_append, List.mem_cons, List.not_mem_nil, or_false, not_or]
      exact ⟨⟨by decide, fun h => by have := hds _ h; revert this; decide⟩, by decide⟩) (by simp) (.operand hne hds .nil) ih
    simpa using this

theorem trimStart_spec {s : Str} {ps : List Spec.Piece} (h : Spec.RustTemplate s ps) :
    ∃ a qs, ps = a ++ qs ∧ (∀ p ∈ a, p.Blank) ∧ (∀ p ∈ qs.head?, ¬ p.Blank) ∧ Spec.RustTemplate (s.dropWhile isWs) qs := by
  induction h with
  | nil => exact ⟨[], [], rfl, by simp, by simp, .nil⟩
  | @text c s ps h1 h2 h ih =>
    by_cases hc : isWs c = true
    · obtain ⟨a, qs, rfl, h3, h4, h5⟩ := ih
      refine ⟨.char c :: a, qs, rfl, ?_, h4, by simpa [List.dropWhile_cons, hc] using h5⟩
      intro p hp
      rcases List.mem_cons.1 hp with rfl | hp
      · exact (isWs_iff c).1 hc
      · exact h3 p hp
    · refine ⟨[], .char c :: ps, rfl, by simp, ?_, by simpa [List.dropWhile_cons, hc] using .text h1 h2 h⟩
      intro p hp
      simp at hp
      subst hp
      exact fun hb => hc ((isWs_iff c).2 hb)
  | @opening s ps h ih =>
    refine ⟨[], .char '{' :: ps, rfl, by simp, ?_, by simpa [List.dropWhile_cons, show isWs '{' = false by decide] using .opening h⟩
    intro p hp
    simp at hp
    subst hp
    simp [Spec.Piece.Blank, Spec.whiteSpace]
  | @closing s ps h ih =>
    refine ⟨[], .char '}' :: ps, rfl, by simp, ?_, by simpa [List.dropWhile_cons, show isWs '}' = false by decide] using .closing h⟩
    intro p hp
    simp at hp
    subst hp
    simp [Spec.Piece.Blank, Spec.whiteSpace]
  | @operand ds s ps hne hds h ih =>
    refine ⟨[], _, rfl, by simp, ?_, by simpa [List.dropWhile_cons, show isWs '{' = false by decide] using .operand hne hds h⟩
    intro p hp
    simp at hp
    subst hp
    simp [Spec.Piece.Blank]

theorem trimEnd_spec {s : Str} {ps : List Spec.Piece} (h : Spec.RustTemplate s ps) :
    ∃ qs b, ps = qs ++ b ∧ (∀ p ∈ b, p.Blank) ∧ (∀ p ∈ qs.getLast?, ¬ p.Blank) ∧
      Spec.RustTemplate (s.reverse.dropWhile isWs).reverse qs := by
  /- One more piece in front: it stays unless all that follows is white space and so is the piece. -/
  have key : ∀ {x s : Str} {p : Spec.Piece} {ps : List Spec.Piece}, Spec.RustTemplate x [p] → ¬ p.Blank →
      (∃ x', ∃ c, x = x' ++ [c] ∧ isWs c = false) →
      (∃ qs b, ps = qs ++ b ∧ (∀ p ∈ b, p.Blank) ∧ (∀ p ∈ qs.getLast?, ¬ p.Blank) ∧
        Spec.RustTemplate (s.reverse.dropWhile isWs).reverse qs) →
      ∃ qs b, p :: ps = qs ++ b ∧ (∀ p ∈ b, p.Blank) ∧ (∀ p ∈ qs.getLast?, ¬ p.Blank) ∧
        Spec.RustTemplate ((x ++ s).reverse.dropWhile isWs).reverse qs := by
    rintro x s p ps hx hp ⟨x', c, rfl, hc⟩ ⟨qs, b, rfl, h1, h2, h3⟩
    refine ⟨p :: qs, b, rfl, h1, ?_, ?_⟩
    · cases qs with
      | nil => intro q hq; simp at hq; subst hq; exact hp
      | cons q qs => simpa using h2
    · have : (((x' ++ [c]) ++ s).reverse.dropWhile isWs).reverse = (x' ++ [c]) ++ (s.reverse.dropWhile isWs).reverse := by
        rw [List.reverse_append, List.dropWhile_append]
        split
        · rename_i he
          have : List.dropWhile isWs s.reverse = [] := by simpa using he
          rw [this]
          simp [List.dropWhile_cons, hc]
        · simp
      rw [this]
      exact hx.append h3
  induction h with
  | nil => exact ⟨[], [], rfl, by simp, by simp, .nil⟩
  | @text c s ps h1 h2 h ih =>
    by_cases hc : isWs c = true
    · obtain ⟨qs, b, rfl, h3, h4, h5⟩ := ih
      by_cases he : List.dropWhile isWs s.reverse = []
      · rw [he] at h5
        have : qs = [] := by
          generalize hs : ([] : Str).reverse = s' at h5
          cases h5 with
          | nil => rfl
          | _ => simp at hs
        subst this
        refine ⟨[], .char c :: b, rfl, ?_, by simp, ?_⟩
        · intro p hp
          rcases List.mem_cons.1 hp with rfl | hp
          · exact (isWs_iff c).1 hc
          · exact h3 p hp
        · simp [List.dropWhile_append, he, List.dropWhile_cons, hc]
          exact .nil
      · refine ⟨.char c :: qs, b, rfl, h3, ?_, ?_⟩
        · cases qs with
          | nil =>
            exfalso
            generalize hs : (List.dropWhile isWs s.reverse).reverse = s' at h5
            cases h5
            exact he (by simpa using hs)
          | cons q qs => simpa using h4
        · have : ((c :: s).reverse.dropWhile isWs).reverse = c :: (s.reverse.dropWhile isWs).reverse := by
            simp [List.dropWhile_append, he]
          rw [this]
          exact .text h1 h2 h5
    · exact key (x := [c]) (.text h1 h2 .nil) (fun hb => hc ((isWs_iff c).2 hb)) ⟨[], c, rfl, by simpa using hc⟩ ih
  | @opening s ps h ih =>
    exact key (x := ['{', '{']) (.opening .nil) (by simp [Spec.Piece.Blank, Spec.whiteSpace]) ⟨['{'], '{', rfl, by decide⟩ ih
  | @closing s ps h ih =>
    exact key (x := ['}', '}']) (.closing .nil) (by simp [Spec.Piece.Blank, Spec.whiteSpace]) ⟨['}'], '}', rfl, by decide⟩ ih
  | @operand ds s ps hne hds h ih =>
    have := key (x := '{' :: ds ++ ['}']) (.operand hne hds .nil) (by simp [Spec.Piece.Blank]) ⟨'{' :: ds, '}', rfl, by decide⟩ ih
    simpa using this

theorem trim_spec {s : Str} {ps : List Spec.Piece} (h : Spec.RustTemplate s ps) :
    ∃ qs, Spec.Trimmed ps qs ∧ Spec.RustTemplate (trim s) qs := by
  obtain ⟨a, qs, rfl, h1, h2, h3⟩ := trimStart_spec h
  obtain ⟨rs, b, rfl, h4, h5, h6⟩ := trimEnd_spec h3
  refine ⟨rs, ⟨a, b, by simp, h1, h4, ?_, h5⟩, h6⟩
  intro p hp
  cases rs with
  | nil => simp at hp
  | cons r rs => exact h2 p (by simpa using hp)

theorem TLines.trim {ls : List Str} {pss : List (List Spec.Piece)} (h : TLines ls pss) : Spec.SameLines (ls.map trim) pss := by
  induction h with
  | nil => exact .nil
  | cons h _ ih =>
    obtain ⟨qs, h1, h2⟩ := trim_spec h
    exact .cons h1 h2 ih

/-- **C44**, partial: for templates without braces and without `%%`. Missing: those with braces or
`%%`, where it is false (`C44_false`). -/
theorem C44_templates_partial (s : Str) (ps : List Spec.Piece) (h : Spec.CTemplate s ps)
    (ho : ∀ n, .operand n ∈ ps → n < 2 ^ 64) (hb : '{' ∉ s ∧ '}' ∉ s) (hp : ∀ a b, s ≠ a ++ '%' :: '%' :: b) :
    ∃ ls pss, parseTemplate s = some ls ∧ Spec.Lines ps pss ∧ Spec.SameLines ls pss := by
  obtain ⟨parts, h1, h2⟩ := template_parts _ s ps (Nat.le_refl _) h
    (fun c hc => ⟨fun e => hb.1 (e ▸ hc), fun e => hb.2 (e ▸ hc)⟩) hp ho
  obtain ⟨pss, h3, h4⟩ := splitLines_spec h2
  exact ⟨_, pss, by simp [parseTemplate, allConsuming, h1], h3, h4.trim⟩

/-- A template with two lines, two operands and a register. -/
example : parseTemplate c!"mov %12,%eax\n\tret %0 " = some [c!"mov {12},%eax", c!"ret {0}"] ∧
    ∃ ps, Spec.CTemplate c!"mov %12,%eax\n\tret %0 " ps ∧ ∀ n, .operand n ∈ ps → n < 2 ^ 64 := by
  refine ⟨by decide +kernel, _, .text (by decide) (.text (by decide) (.text (by decide) (.text (by decide)
    (.operand (ds := c!"12") (by decide) (by decide) (by decide) (.text (by decide) (.reg (ls := c!"eax") (by decide) (by decide) (by decide)
    (.text (by decide) (.text (by decide) (.text (by decide) (.text (by decide) (.text (by decide) (.text (by decide)
    (.operand (ds := c!"0") (by decide) (by decide) (by decide) (.text (by decide) .nil)))))))))))))), ?_⟩
  intro n hn
  simp at hn
  rcases hn with rfl | rfl <;> decide

end CMacro
