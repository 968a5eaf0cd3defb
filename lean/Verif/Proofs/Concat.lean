import Verif.Proofs.Paste

/-! # The `##` operator in token lists -/

namespace CMacro
open Parser Spec

variable {E : Env}

theorem takeUntilEnd_text : ∀ {t : Str}, ¬ c!"*/" <:+: t →
    takeUntilEnd (t ++ c!"*/") = some (t, c!"*/") := by
  intro t
  induction t with
  | nil => intro _; rfl
  | cons c t ih =>
    intro h
    have ih := ih (fun hi => h (hi.trans (List.suffix_cons c t).isInfix))
    rw [List.cons_append, takeUntilEnd.eq_def]
    simp only
    split
    · rename_i r he
      cases t with
      | nil => simp at he
      | cons d t =>
        simp only [List.cons_append, List.cons.injEq] at he
        exact absurd ⟨[], t, by simp [he.1]⟩ h
    · rw [ih]

theorem fromStr_comment (L : E.Lawful) {t : Str} (ht : ¬ c!"*/" <:+: t) :
    Token.fromStr E (c!"/*" ++ t ++ c!"*/") = .comment t := by
  have hst : isIdentStart E '/' = false := by
    simp [isIdentStart, L.startAscii '/' (by decide)]
  have hct : E.xidContinue '/' = false := by rw [L.contAscii '/' (by decide)]; decide
  have h1 : identTryFrom E ('/' :: '*' :: (t ++ c!"*/")) = none := by
    simp [identTryFrom, allConsuming, identParseStr, Parser.or, identPlain, hst, identEscaped,
      Parser.map, seq, mapOpt, identChar_char _ (show '/' ≠ '\\' by decide)]
  have h2 : Lit.tryFrom ('/' :: '*' :: (t ++ c!"*/")) = none := by
    refine lit_none ⟨by decide, by decide⟩ ?_ ?_
    · simp [LitChar.parseStr, mapOpt, seq, opt, charPrefix, Parser.or, Parser.map, tag,
        LitChar.parseUnprefixed, delimited, terminated, preceded]
    · simp [LitString.parseStr, Parser.or, Parser.map, preceded, seq, tag, parseOrdinary, delimited,
        terminated, dquote]
  have h3 : identContTryFrom E ('/' :: '*' :: (t ++ c!"*/")) = none := by
    simp only [identContTryFrom, allConsuming, identContParseStr]
    rw [or_right (by simp [takeWhile1, hct])]
    simp [many1, many0, many0F, mapOpt, identChar_char _ (show '/' ≠ '\\' by decide), hct]
  have h4 : punctTryFrom ('/' :: '*' :: (t ++ c!"*/")) = none := by
    simp [punctTryFrom, punctTable]
  have h5 : commentTryFrom ('/' :: '*' :: (t ++ c!"*/")) = some t := by
    simp [commentTryFrom, allConsuming, delimited, terminated, preceded, Parser.map, seq, tag,
      takeUntilEnd_text ht]
  show Token.fromStr E ('/' :: '*' :: (t ++ c!"*/")) = _
  unfold Token.fromStr
  rw [if_neg (by simp), h1, h2, h3, h4, h5]

theorem fromStr_blockComment (L : E.Lawful) {s : Str} (h : BlockComment s) :
    ∃ t, Token.fromStr E s = .comment t := by
  obtain ⟨t, rfl, ht⟩ := h
  exact ⟨t, fromStr_comment L ht⟩

theorem punctTryFrom_suffix : ∀ {s p : Str}, punctTryFrom s = some p → p <:+ s := by
  intro s
  fun_induction punctTryFrom s with
  | case1 s ih => intro p h; exact (ih h).trans ⟨c!"\\\n", rfl⟩
  | case2 s ih => intro p h; exact (ih h).trans ⟨c!"\\\r\n", rfl⟩
  | case3 s _ _ hm =>
    intro p h
    simp only [Option.some.injEq] at h
    rw [h]; exact List.suffix_refl _
  | case4 => intro p h; simp at h

theorem fromStr_paste_suffix {s : Str} (h : Token.fromStr E s = .punct c!"##") : c!"##" <:+ s := by
  unfold Token.fromStr at h
  split at h
  · simp at h
  · repeat' split at h
    all_goals first
      | (simp at h; done)
      | (simp only [Token.punct.injEq] at h; subst h; exact punctTryFrom_suffix (by assumption))

theorem fromStr_hashhash (L : E.Lawful) : Token.fromStr E c!"##" = .punct c!"##" := by
  have hst : isIdentStart E '#' = false := by
    simp [isIdentStart, L.startAscii '#' (by decide)]
  have hct : E.xidContinue '#' = false := by rw [L.contAscii '#' (by decide)]; decide
  have h1 : identTryFrom E c!"##" = none := by
    simp [identTryFrom, allConsuming, identParseStr, Parser.or, identPlain, hst, identEscaped,
      Parser.map, seq, mapOpt, identChar_char _ (show '#' ≠ '\\' by decide)]
  have h3 : identContTryFrom E c!"##" = none := by
    simp only [identContTryFrom, allConsuming, identContParseStr]
    rw [or_right (by simp [takeWhile1, hct])]
    simp [many1, many0, many0F, mapOpt, identChar_char _ (show '#' ≠ '\\' by decide), hct]
  have h2 : Lit.tryFrom c!"##" = none := by decide +kernel
  have h4 : punctTryFrom c!"##" = some c!"##" := by decide +kernel
  unfold Token.fromStr
  rw [if_neg (by decide), h1, h2, h3, h4]

theorem expandConcatGo_skip : ∀ (pre : List Token) n out ts,
    (∀ t ∈ pre, t ≠ Token.punct c!"##") →
    expandConcatGo E (n + pre.length) out (pre ++ ts) =
      expandConcatGo E n (pre.reverse ++ out) ts := by
  intro pre
  induction pre with
  | nil => intro n out ts _; rfl
  | cons t pre ih =>
    intro n out ts h
    rw [List.length_cons, ← Nat.add_assoc, List.cons_append, expandConcatGo,
      if_neg (fun hc => h t List.mem_cons_self hc.1),
      ih n _ _ (fun x hx => h x (List.mem_cons_of_mem _ hx))]
    simp

/-! ## One paste in the middle -/

/-- One `##` between two tokens, no other `##` around. -/
theorem expandConcat_one {pre post : List Token} {a b : Token}
    (hpre : ∀ t ∈ pre, t ≠ Token.punct c!"##") (hpost : ∀ t ∈ post, t ≠ Token.punct c!"##")
    (ha : a ≠ .punct c!"##") (hb : b ≠ .punct c!"##") (haa : a.isArg = false)
    (hba : b.isArg = false) (hac : ∀ c, a ≠ .comment c) (hbc : ∀ c, b ≠ .comment c) :
    expandConcat E (pre ++ a :: .punct c!"##" :: b :: post) =
      (match a.concat E b with
        | .ok t => .ok (pre ++ t :: post)
        | .error e => .error e) := by
  unfold expandConcat
  have hpop : ∀ (x : Token) l, (∀ c, x ≠ .comment c) → popNonComment (x :: l) = some (x, l) := by
    intro x l hx
    cases x with
    | comment c => exact absurd rfl (hx c)
    | _ => rfl
  rw [show (pre ++ a :: Token.punct c!"##" :: b :: post) =
    (pre ++ [a]) ++ (Token.punct c!"##" :: b :: post) by simp,
    show ((pre ++ [a]) ++ (Token.punct c!"##" :: b :: post)).length + 1 =
      (post.length + 2 + 1) + (pre ++ [a]).length by simp; omega,
    expandConcatGo_skip (pre ++ [a]) _ _ _ (by
      intro t ht
      rcases List.mem_append.1 ht with ht | ht
      · exact hpre t ht
      · simp only [List.mem_singleton] at ht; rw [ht]; exact ha)]
  simp only [List.reverse_append, List.reverse_cons, List.reverse_nil, List.nil_append,
    List.append_nil, List.cons_append]
  rw [expandConcatGo]
  simp only [List.head?_cons, Option.map_some, Option.getD_some, haa, hba, and_self, if_true,
    hpop a _ hac, hpop b _ hbc, Option.some.injEq, hb, if_false]
  cases a.concat E b with
  | error e => rfl
  | ok t =>
    simp only
    rw [expandConcatGo_noop _ _ _ (by omega) hpost]
    simp

/-! ## `##` at the ends -/

theorem popNonComment_comments : ∀ {cs : List Token}, (∀ t ∈ cs, ∃ c, t = .comment c) →
    popNonComment cs = none := by
  intro cs
  induction cs with
  | nil => intro _; rfl
  | cons t cs ih =>
    intro h
    obtain ⟨c, rfl⟩ := h t List.mem_cons_self
    exact ih (fun x hx => h x (List.mem_cons_of_mem _ hx))

theorem head_isArg_false {ts : List Token} (h : ∀ t ∈ ts, t.isArg = false) :
    (ts.head?.map Token.isArg).getD false = false := by
  cases ts with
  | nil => rfl
  | cons t ts => exact h t List.mem_cons_self

theorem expandConcat_begin {cs rest : List Token} (hc : ∀ t ∈ cs, ∃ c, t = .comment c)
    (hr : ∀ t ∈ rest, t.isArg = false) :
    expandConcat E (cs ++ .punct c!"##" :: rest) = .error (.err .concatBegin) := by
  unfold expandConcat
  rw [show (cs ++ Token.punct c!"##" :: rest).length + 1 = (rest.length + 1 + 1) + cs.length by
      simp; omega,
    expandConcatGo_skip cs _ _ _ (by
      intro t ht
      obtain ⟨c, rfl⟩ := hc t ht
      simp)]
  have hcr : ∀ t ∈ cs.reverse ++ [], ∃ c, t = .comment c := by
    intro t ht
    exact hc t (by simpa using ht)
  rw [expandConcatGo, if_pos ⟨rfl, head_isArg_false (fun t ht => by
    obtain ⟨c, rfl⟩ := hcr t ht; rfl), head_isArg_false hr⟩, popNonComment_comments hcr]

/-- Tokens as they occur in variable-like macros. -/
def Ordinary (t : Token) : Prop := t.isArg = false ∧ t.strip ≠ .placemarker

theorem ordinary_concat {a b c : Token} (h : a.concat E b = .ok c) (ha : Ordinary a)
    (hb : b.strip ≠ .placemarker) : Ordinary c := by
  unfold Ordinary at *
  unfold Token.concat at h
  have ha := ha.2
  generalize a.strip = a' at *
  generalize b.strip = b' at *
  unfold concatCore concatPunctLit concatIdentLit concatGeneral reclassify at h
  repeat' split at h
  all_goals simp only [reduceCtorEq, Except.ok.injEq] at h
  all_goals first
    | (subst h; simp [Token.strip, Token.isArg]; done)
    | (exfalso; simp at ha; done)
    | (exfalso; simp at hb; done)
    | skip
  all_goals (split at h <;> simp only [reduceCtorEq, Except.ok.injEq] at h <;> subst h <;>
          simp [Token.strip, Token.isArg])

theorem strip_ordinary {a : Token} (h : Ordinary a) (hs : a.strip.isArg = false) :
    Ordinary a.strip := by
  refine ⟨hs, ?_⟩
  have : a.strip.strip = a.strip := by
    have := fun x => strip_ne_nonRepl a x
    generalize a.strip = a' at *
    cases a' with
    | nonRepl x => exact absurd rfl (this x)
    | _ => rfl
  rw [this]; exact h.2

theorem concat_placemarker {a c : Token} (h : a.concat E .placemarker = .ok c) : c = a.strip := by
  unfold Token.concat at h
  have hn := fun x => strip_ne_nonRepl a x
  generalize a.strip = a' at *
  cases a' <;> simp [concatCore, Token.strip] at h <;> first | exact h.symm | skip

theorem concat_hashhash {a c : Token} (ha : a.strip ≠ .placemarker) :
    a.concat E (.punct c!"##") ≠ .ok c := by
  intro h
  unfold Token.concat at h
  generalize a.strip = a' at *
  cases a' with
  | placemarker => exact ha rfl
  | punct l =>
    have hn : punctConcat l c!"##" = none := by
      unfold punctConcat
      split <;> simp_all
    simp [concatCore, Token.strip, hn] at h
  | lit l s => cases l <;> simp [concatCore, Token.strip, concatGeneral, Token.pasteText] at h
  | _ => simp [concatCore, Token.strip, concatGeneral, Token.pasteText] at h

/-- No parameter under a mark either. -/
def Inside (t : Token) : Prop := Ordinary t ∧ t.strip.isArg = false

theorem inside_concat {a b c : Token} (h : a.concat E b = .ok c) (ha : Inside a)
    (hb : b.strip ≠ .placemarker) : Inside c := by
  have h0 := ordinary_concat h ha.1 hb
  refine ⟨h0, ?_⟩
  unfold Token.concat at h
  have ha := ha.1.2
  generalize a.strip = a' at *
  generalize b.strip = b' at *
  unfold concatCore concatPunctLit concatIdentLit concatGeneral reclassify at h
  repeat' split at h
  all_goals simp only [reduceCtorEq, Except.ok.injEq] at h
  all_goals first
    | (subst h; simp [Token.strip, Token.isArg]; done)
    | (exfalso; simp at ha; done)
    | (exfalso; simp at hb; done)
    | skip
  all_goals (split at h <;> simp only [reduceCtorEq, Except.ok.injEq] at h <;> subst h <;>
          simp [Token.strip, Token.isArg])

theorem inside_strip {a : Token} (h : Inside a) : Inside a.strip := by
  refine ⟨strip_ordinary h.1 h.2, ?_⟩
  have : a.strip.strip = a.strip := by
    have := fun x => strip_ne_nonRepl a x
    generalize a.strip = a' at *
    cases a' with
    | nonRepl x => exact absurd rfl (this x)
    | _ => rfl
  rw [this]; exact h.2

theorem popNonComment_append {cs : List Token} (hcs : ∀ t ∈ cs, ∃ c, t = .comment c) :
    ∀ {ts : List Token} {t r}, popNonComment (ts ++ .punct c!"##" :: cs) = some (t, r) →
    (t ∈ ts ∧ ∃ ts', r = ts' ++ .punct c!"##" :: cs ∧ ∀ x ∈ ts', x ∈ ts) ∨ t = .punct c!"##" := by
  intro ts
  induction ts with
  | nil =>
    intro t r h
    simp only [List.nil_append, popNonComment, Option.some.injEq, Prod.mk.injEq] at h
    exact .inr h.1.symm
  | cons x ts ih =>
    intro t r h
    cases x with
    | comment c =>
      simp only [List.cons_append, popNonComment] at h
      rcases ih h with ⟨h1, ts', h2, h3⟩ | h
      · exact .inl ⟨List.mem_cons_of_mem _ h1, ts', h2, fun x hx => List.mem_cons_of_mem _ (h3 x hx)⟩
      · exact .inr h
    | _ =>
      simp only [List.cons_append, popNonComment, Option.some.injEq, Prod.mk.injEq] at h
      obtain ⟨rfl, rfl⟩ := h
      exact .inl ⟨List.mem_cons_self, ts, rfl, fun x hx => List.mem_cons_of_mem _ hx⟩

theorem expandConcatGo_end {cs : List Token} (hcs : ∀ t ∈ cs, ∃ c, t = .comment c) :
    ∀ n (out ts r : List Token), AllTok Inside out → AllTok Inside ts →
    expandConcatGo E n out (ts ++ .punct c!"##" :: cs) ≠ .ok r := by
  intro n
  induction n with
  | zero => intro out ts r _ _ h; simp [expandConcatGo] at h
  | succ n ih =>
    intro out ts r ho ht h
    have hcons : ∀ {x : Token} {l : List Token}, Inside x → AllTok Inside l → AllTok Inside (x :: l) := by
      intro x l hx hl y hy
      rcases List.mem_cons.1 hy with rfl | hy
      · exact hx
      · exact hl y hy
    have hout := head_isArg_false (fun t h => (ho t h).1.1)
    have hcsA : ∀ t ∈ cs, t.isArg = false := by
      intro t ht
      obtain ⟨c, rfl⟩ := hcs t ht
      rfl
    have hcsn : cs.head? ≠ some (.punct c!"##") := by
      cases cs with
      | nil => simp
      | cons x cs => obtain ⟨c, rfl⟩ := hcs x List.mem_cons_self; simp
    cases ts with
    | nil =>
      rw [List.nil_append, expandConcatGo, if_pos ⟨rfl, hout, head_isArg_false hcsA⟩] at h
      split at h
      · simp at h
      · rw [if_neg hcsn, popNonComment_comments hcs] at h
        simp at h
    | cons t ts =>
      have htl : AllTok Inside ts := fun x hx => ht x (List.mem_cons_of_mem _ hx)
      have hrest := head_isArg_false (ts := ts ++ Token.punct c!"##" :: cs) (by
        intro x hx
        rcases List.mem_append.1 hx with hx | hx
        · exact (htl x hx).1.1
        · rcases List.mem_cons.1 hx with rfl | hx
          · rfl
          · exact hcsA x hx)
      rw [List.cons_append, expandConcatGo] at h
      by_cases hh : t = .punct c!"##"
      · rw [if_pos ⟨hh, hout, hrest⟩] at h
        split at h
        · simp at h
        · rename_i lhs out' hp
          obtain ⟨⟨hl1, hl2⟩, -⟩ := popNonComment_spec hp
          have ho' : AllTok Inside out' := fun x hx => ho x (hl2 x hx)
          have hl := ho lhs hl1
          split at h
          · split at h
            · rename_i t' he
              rw [concat_placemarker he] at h
              exact ih _ _ _ (hcons (inside_strip hl) ho') htl h
            · simp at h
          · split at h
            · simp at h
            · rename_i rhs rest' hp'
              rcases popNonComment_append hcs hp' with ⟨hm, ts', rfl, hts'⟩ | rfl
              · split at h
                · rename_i t' he
                  exact ih _ _ _ (hcons (inside_concat he hl (htl rhs hm).1.2) ho')
                    (fun x hx => htl x (hts' x hx)) h
                · simp at h
              · split at h
                · rename_i t' he
                  exact concat_hashhash hl.1.2 he
                · simp at h
      · rw [if_neg (fun hc => hh hc.1)] at h
        exact ih _ _ _ (hcons (ht t List.mem_cons_self) ho) htl h

theorem inside_fromStr {s : Str} (h : s ≠ c!"__VA_ARGS__") : Inside (Token.fromStr E s) := by
  have h1 : (Token.fromStr E s).strip = Token.fromStr E s := by
    have := fun x => fromStr_ne_nonRepl E s x
    generalize Token.fromStr E s = t at *
    cases t with
    | nonRepl x => exact absurd rfl (this x)
    | _ => rfl
  have h2 : (Token.fromStr E s).isArg = false := by
    cases hh : (Token.fromStr E s).isArg with
    | false => rfl
    | true => exact absurd (fromStr_isArg.1 hh) h
  refine ⟨⟨h2, ?_⟩, by rw [h1, h2]⟩
  rw [h1]
  exact fromStr_ne_placemarker E s

end CMacro
