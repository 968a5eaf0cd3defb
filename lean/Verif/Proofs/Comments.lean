import Verif.Spec.Comments
import Verif.Proofs.GramParse

/-!
# The parser follows the grammar with comments

Lemmas for property C82.  The lemmas have the names of their counterparts without comments in
`Verif.Proofs.Grammar` and `Verif.Proofs.GramParse`.
-/

namespace CMacro.Commented
open Parser Spec

/-! ## Comments -/

/-- The texts of the comments. -/
def texts (cs : List MacroToken) : List Str := cs.filterMap fun
  | .comment s => some s
  | _ => none

theorem isRemark_inv {t : MacroToken} (h : isRemark t = true) : ∃ s, t = .comment s := by
  cases t <;> first | exact ⟨_, rfl⟩ | cases h

theorem shrinks_comment : Shrinks comment := by
  intro i a r h
  cases i with
  | nil => cases h
  | cons t i =>
    cases t <;> first | cases h | skip
    simp

theorem meta_eat {cs : List MacroToken} (hc : Comments cs) {r : List MacroToken} (hr : PlainStart r) :
    «meta» (cs ++ r) = some (texts cs, r) := by
  induction cs with
  | nil => exact meta_none hr
  | cons t cs ih =>
    obtain ⟨s, rfl⟩ := isRemark_inv (hc t (by simp))
    have ih := ih fun t ht => hc t (by simp [ht])
    unfold «meta» at ih ⊢
    rw [many0_eq shrinks_comment]
    have : comment (.comment s :: cs ++ r) = some (s, cs ++ r) := rfl
    rw [this]
    dsimp only
    rw [if_neg (by simp), ih]
    rfl

theorem Comments.append {cs ds : List MacroToken} (hc : Comments cs) (hd : Comments ds) : Comments (cs ++ ds) := by
  intro t ht
  rcases List.mem_append.1 ht with h | h
  · exact hc t h
  · exact hd t h

theorem delim_punct {p : Str} {bs cs i : List MacroToken} (hb : Comments bs) (hc : Comments cs) (h : PlainStart i) :
    delimited «meta» (punct p) «meta» (bs ++ .punct p :: (cs ++ i)) = some ((), i) := by
  simp only [delimited, terminated, preceded, map, seq, meta_eat hb (noComment_punct _ _), punct_self, meta_eat hc h]

/-! ## What can follow -/

/-- Comments, then the end or a punctuator that is not one of these. -/
def StopC (ps : List Str) (i : List MacroToken) : Prop := ∃ cs r, i = cs ++ r ∧ Comments cs ∧ Stop ps r

theorem StopC.of {ps : List Str} {i : List MacroToken} (h : Stop ps i) : StopC ps i := ⟨[], i, rfl, fun _ h => by (cases h), h⟩

theorem StopC.mono {ps qs : List Str} {i : List MacroToken} (h : StopC ps i) (hs : ∀ q ∈ qs, q ∈ ps) : StopC qs i := by
  obtain ⟨cs, r, rfl, hc, hr⟩ := h
  exact ⟨cs, r, rfl, hc, hr.mono hs⟩

theorem stop_punct {ps : List Str} {p : Str} (h : p ∉ ps) {cs : List MacroToken} (hc : Comments cs) (r : List MacroToken) :
    StopC ps (cs ++ .punct p :: r) := ⟨cs, _, rfl, hc, .inr ⟨p, r, rfl, h⟩⟩

theorem StopC.cases {ps : List Str} {i : List MacroToken} (h : StopC ps i) :
    i = [] ∨ (∃ p r, i = .punct p :: r ∧ p ∉ ps) ∨ ∃ s r, i = .comment s :: r := by
  obtain ⟨cs, r, rfl, hc, hr⟩ := h
  cases cs with
  | nil =>
    rcases hr with rfl | ⟨p, r, rfl, hp⟩
    · exact .inl rfl
    · exact .inr (.inl ⟨p, r, rfl, hp⟩)
  | cons t cs =>
    obtain ⟨s, rfl⟩ := isRemark_inv (hc t (by simp))
    exact .inr (.inr ⟨s, _, rfl⟩)

/-! ## The shape of expressions -/

/-- `*` and comments. -/
def Junk (j : List MacroToken) : Prop := ∀ t ∈ j, isRemark t = true ∨ t = .punct c!"*"

theorem Junk.of {cs : List MacroToken} (h : Comments cs) : Junk cs := fun t ht => .inl (h t ht)

theorem Junk.append {cs ds : List MacroToken} (hc : Junk cs) (hd : Junk ds) : Junk (cs ++ ds) := by
  intro t ht
  rcases List.mem_append.1 ht with h | h
  · exact hc t h
  · exact hd t h

theorem Junk.star {j : List MacroToken} (h : Junk j) : Junk (.punct c!"*" :: j) := by
  intro t ht
  rcases List.mem_cons.1 ht with rfl | h'
  · exact .inr rfl
  · exact h t h'

/-- Some `*` and comments, then a token that does not continue a type.  Not beginning with a comment. -/
def Start (ts : List MacroToken) : Prop := (∃ j t u, ts = j ++ t :: u ∧ Junk j ∧ TyStop t) ∧ ∃ t u, ts = t :: u ∧ isRemark t = false

theorem Start.append {ts : List MacroToken} (h : Start ts) (us : List MacroToken) : Start (ts ++ us) := by
  obtain ⟨⟨j, t, u, he, hj, ht⟩, t', u', he', hc⟩ := h
  exact ⟨⟨j, t, u ++ us, by rw [he]; simp, hj, ht⟩, t', u' ++ us, by rw [he']; simp, hc⟩

theorem TyStop.notComment {t : MacroToken} (h : TyStop t) : isRemark t = false := by
  cases t <;> first | rfl | exact absurd rfl (h.1 _)

theorem Start.of {t : MacroToken} (h : TyStop t) (us : List MacroToken) : Start (t :: us) :=
  ⟨⟨[], t, us, rfl, fun _ h => by (cases h), h⟩, t, us, rfl, TyStop.notComment h⟩

theorem Start.star {cs ts : List MacroToken} (hc : Comments cs) (h : Start ts) : Start (.punct c!"*" :: (cs ++ ts)) := by
  obtain ⟨⟨j, t, u, rfl, hj, ht⟩, _⟩ := h
  exact ⟨⟨.punct c!"*" :: (cs ++ j), t, u, by simp, (Junk.append (.of hc) hj).star, ht⟩, _, _, rfl, rfl⟩

theorem Start.noComment {ts : List MacroToken} (h : Start ts) (us : List MacroToken) : PlainStart (ts ++ us) := by
  obtain ⟨_, t, u, rfl, h⟩ := h
  intro s r hs
  cases hs
  cases h

theorem gram_start {ℓ : Nat} {ts : List MacroToken} {e : Expr} : GramC ℓ ts e → Start ts
  | .name h => .of h.tyStop _
  | .lit => .of ⟨by simp, by simp, by simp, by simp, by simp⟩ _
  | .paren _ _ _ _ => .of (tyStop_punct (by decide) (by decide)) _
  | .sizeOf _ _ _ => .of ⟨by simp, by simp, by simp, by decide, by decide⟩ _
  | .call h _ _ _ _ => .of h.tyStop _
  | .index h _ _ _ _ => (gram_start h).append _
  | .member h _ _ _ => (gram_start h).append _
  | .arrow h _ _ _ => (gram_start h).append _
  | .postInc h _ => (gram_start h).append _
  | .postDec h _ => (gram_start h).append _
  | .pre (p := p) hp hc h => by
    by_cases hs : p = c!"*"
    · subst hs; exact .star hc (gram_start h)
    · refine .of (tyStop_punct ?_ hs) _
      rintro rfl
      simp [prefixOps] at hp
  | .cast _ _ _ _ => .of (tyStop_punct (by decide) (by decide)) _
  | .bin _ h _ _ _ => (gram_start h).append _
  | .cond h _ _ _ _ _ _ => (gram_start h).append _
  | .assign _ h _ _ _ => (gram_start h).append _
  | .up h _ => gram_start h

/-- What follows a name inside an expression. -/
def Cont (u : List MacroToken) : Prop :=
  (∃ j t v, u = j ++ t :: v ∧ Junk j ∧ TyStop t) ∧ ∃ cs p r, u = cs ++ .punct p :: r ∧ Comments cs ∧ p ≠ c!"##"

theorem Cont.append {u : List MacroToken} (h : Cont u) (w : List MacroToken) : Cont (u ++ w) := by
  obtain ⟨⟨j, t, v, h1, hj, ht⟩, cs, p, r, h2, hc, hp⟩ := h
  exact ⟨⟨j, t, v ++ w, by rw [h1]; simp, hj, ht⟩, cs, p, r ++ w, by rw [h2]; simp, hc, hp⟩

theorem Cont.of {p : Str} (h1 : p ≠ c!")") (h2 : p ≠ c!"*") (h3 : p ≠ c!"##") {cs : List MacroToken} (hc : Comments cs)
    (w : List MacroToken) : Cont (cs ++ .punct p :: w) :=
  ⟨⟨cs, _, w, rfl, .of hc, tyStop_punct h1 h2⟩, cs, p, w, rfl, hc, h3⟩

theorem Cont.op {p : Str} (h1 : p ≠ c!")") (h3 : p ≠ c!"##") {bs cs ts : List MacroToken} (hb : Comments bs) (hc : Comments cs)
    (h : Start ts) : Cont (bs ++ .punct p :: (cs ++ ts)) := by
  by_cases hs : p = c!"*"
  · subst hs
    obtain ⟨⟨j, t, u, rfl, hj, ht⟩, _⟩ := h
    exact ⟨⟨bs ++ .punct c!"*" :: (cs ++ j), t, u, by simp, .append (.of hb) (Junk.append (.of hc) hj).star, ht⟩, bs, _, _, rfl, hb, h3⟩
  · exact .of h1 hs h3 hb _

theorem cont_append {t : MacroToken} {ts u w : List MacroToken} (hs : Start ts) (heq : ts ++ w = t :: u)
    (ih : ∀ u', ts = t :: u' → u' = [] ∨ Cont u') (hw : Cont w) : Cont u := by
  cases ts with
  | nil => obtain ⟨_, t, u, h, _⟩ := hs; cases h
  | cons t' u' =>
    simp only [List.cons_append, List.cons.injEq] at heq
    obtain ⟨rfl, rfl⟩ := heq
    rcases ih u' rfl with rfl | hc
    · exact hw
    · exact hc.append _

theorem gram_cont {ℓ : Nat} {ts : List MacroToken} {e : Expr} (h : GramC ℓ ts e) {t : MacroToken} (ht : NameLike t) :
    ∀ {u : List MacroToken}, ts = t :: u → u = [] ∨ Cont u := by
  match h with
  | .name h => intro u hu; cases hu; exact .inl rfl
  | .lit => intro u hu; cases hu; exact absurd ht (by simp [NameLike])
  | .paren _ _ _ _ => intro u hu; cases hu; exact absurd ht (by simp [NameLike])
  | .sizeOf _ _ _ => intro u hu; cases hu; exact .inr (.of (cs := []) (by decide) (by decide) (by decide) (by simp [Comments]) _)
  | .call h hb _ _ _ => intro u hu; cases hu; exact .inr (.of (by decide) (by decide) (by decide) hb _)
  | .index h hb _ _ _ =>
    intro u hu
    exact .inr (cont_append (gram_start h) hu (fun u' h' => gram_cont h ht h') (.of (by decide) (by decide) (by decide) hb _))
  | .member h hb _ _ =>
    intro u hu
    exact .inr (cont_append (gram_start h) hu (fun u' h' => gram_cont h ht h') (.of (by decide) (by decide) (by decide) hb _))
  | .arrow h hb _ _ =>
    intro u hu
    exact .inr (cont_append (gram_start h) hu (fun u' h' => gram_cont h ht h') (.of (by decide) (by decide) (by decide) hb _))
  | .postInc h hb =>
    intro u hu
    exact .inr (cont_append (gram_start h) hu (fun u' h' => gram_cont h ht h') (.of (by decide) (by decide) (by decide) hb _))
  | .postDec h hb =>
    intro u hu
    exact .inr (cont_append (gram_start h) hu (fun u' h' => gram_cont h ht h') (.of (by decide) (by decide) (by decide) hb _))
  | .pre _ _ _ => intro u hu; cases hu; exact absurd ht (by simp [NameLike])
  | .cast _ _ _ _ => intro u hu; cases hu; exact absurd ht (by simp [NameLike])
  | .bin hp h hb hc h' =>
    intro u hu
    refine .inr (cont_append (gram_start h) hu (fun u' h' => gram_cont h ht h') (.op ?_ ?_ hb hc (gram_start h'))) <;>
    · rintro rfl; simp [binaryOps] at hp
  | .cond h hb _ _ _ _ _ =>
    intro u hu
    exact .inr (cont_append (gram_start h) hu (fun u' h' => gram_cont h ht h') (.of (by decide) (by decide) (by decide) hb _))
  | .assign hp h hb hc h' =>
    intro u hu
    refine .inr (cont_append (gram_start h) hu (fun u' h' => gram_cont h ht h') (.op ?_ ?_ hb hc (gram_start h'))) <;>
    · rintro rfl; simp [assignOps] at hp
  | .up h _ => intro u hu; exact gram_cont h ht hu

theorem gram_head {ℓ : Nat} {ts : List MacroToken} {e : Expr} : GramC ℓ ts e → Head ts
  | .name h => .inl ⟨_, _, _, rfl, h⟩
  | .lit => .inr (.inl ⟨_, _, rfl⟩)
  | .paren _ _ _ _ => .inr (.inr (.inl ⟨_, _, rfl⟩))
  | .sizeOf _ _ _ => .inr (.inr (.inr ⟨_, rfl⟩))
  | .call h _ _ _ _ => .inl ⟨_, _, _, rfl, h⟩
  | .index h _ _ _ _ => (gram_head h).append _
  | .member h _ _ _ => (gram_head h).append _
  | .arrow h _ _ _ => (gram_head h).append _
  | .postInc h _ => (gram_head h).append _
  | .postDec h _ => (gram_head h).append _
  | .pre _ _ _ => .inr (.inr (.inl ⟨_, _, rfl⟩))
  | .cast _ _ _ _ => .inr (.inr (.inl ⟨_, _, rfl⟩))
  | .bin _ h _ _ _ => (gram_head h).append _
  | .cond h _ _ _ _ _ _ => (gram_head h).append _
  | .assign _ h _ _ _ => (gram_head h).append _
  | .up h _ => gram_head h

/-! ## Not a type -/

theorem tyBase_name (E : Env) {t : MacroToken} (h : NameLike t) {cs : List MacroToken} (hc : Comments cs) {p : Str} (hp : p ≠ c!"##")
    (r : List MacroToken) :
    ∃ T, seq (tyBase E) (opt constVolatile) (t :: (cs ++ .punct p :: r)) = some ((T, none), cs ++ .punct p :: r) := by
  have hp' : c!"##" ≠ p := fun h => hp h.symm
  have hm := meta_eat hc (noComment_punct p r)
  have hpn := punct_ne hp' r
  have hv : constVolatile (cs ++ .punct p :: r) = none := by
    cases cs with
    | nil => exact constVolatile_none (by simp) (by simp)
    | cons t cs =>
      obtain ⟨s, rfl⟩ := isRemark_inv (hc t (by simp))
      exact constVolatile_none (by simp) (by simp)
  have hcont : many0 (preceded (delimited «meta» (punct c!"##") «meta») (contPart E)) (cs ++ .punct p :: r) =
      some ([], cs ++ .punct p :: r) := by
    have : preceded (delimited «meta» (punct c!"##") «meta») (contPart E) (cs ++ .punct p :: r) = none := by
      simp only [preceded, delimited, terminated, map, seq, hm, hpn]
    simp only [many0, many0F, this]
  generalize cs ++ .punct p :: r = i at *
  rcases h with ⟨x, rfl, h⟩ | ⟨j, rfl⟩
  · simp only [Spec.tyKeywords, List.mem_cons, List.not_mem_nil, or_false, not_or] at h
    obtain ⟨a1, a2, a3, a4, a5, a6, a7, a8, a9, a10, a11, a12, a13⟩ := h
    have hid : parseConcatIdent E (.ident x :: i) = some (.plain x, i) := by
      have : (Parser.or (map macroArg IdentExpr.arg) (map macroId IdentExpr.plain)) (.ident x :: i) = some (.plain x, i) := rfl
      simp only [parseConcatIdent, this, map, hcont, List.foldl_nil]
    refine ⟨.ident (.plain x) false, ?_⟩
    have hcv : constVolatile (.ident x :: i) = none := constVolatile_none (by simp [*]) (by simp [*])
    have hb : tyBase E (.ident x :: i) = some (.ident (.plain x) false, i) := by
      simp [tyBase, simpleTy, doubleTy, intTy, intTyLongLong, intTyLength, intTyPlain, identTy, seq, opt, hcv, hid,
        Parser.or, value, permutation, permGo, permStep, permDone, keyword_ne,
        map, mapOpt, terminated, a1, a2, a3, a4, a5, a6, a7, a8, a9, a10, a11, a12, a13, qualPart, optPart, intSignedness,
        intLength, kwPart, preceded, Ty.qualifyOpt]
    simp only [seq, hb, opt, hv]
  · have hid : parseConcatIdent E (.arg j :: i) = some (.arg j, i) := by
      have : (Parser.or (map macroArg IdentExpr.arg) (map macroId IdentExpr.plain)) (.arg j :: i) = some (.arg j, i) := rfl
      simp only [parseConcatIdent, this, map, hcont, List.foldl_nil]
    refine ⟨.ident (.arg j) false, ?_⟩
    have hcv : constVolatile (.arg j :: i) = none := constVolatile_none (by simp) (by simp)
    have hk : ∀ k, keyword k (.arg j :: i) = none := fun k => rfl
    have hb : tyBase E (.arg j :: i) = some (.ident (.arg j) false, i) := by
      simp [tyBase, simpleTy, doubleTy, intTy, intTyLongLong, intTyLength, intTyPlain, identTy, seq, opt, hcv, hid,
        Parser.or, value, permutation, permGo, permStep, permDone, hk,
        map, mapOpt, terminated, qualPart, optPart, intSignedness,
        intLength, kwPart, preceded, Ty.qualifyOpt]
    simp only [seq, hb, opt, hv]

/-- The first token that is not a comment is not `)`. -/
theorem junk_close {j : List MacroToken} (hj : Junk j) {t : MacroToken} (ht : TyStop t) (r : List MacroToken) :
    ∃ c i, «meta» (j ++ t :: r) = some (c, i) ∧ punct c!")" i = none := by
  have key : ∃ cs i, j ++ t :: r = cs ++ i ∧ Comments cs ∧ PlainStart i ∧ punct c!")" i = none := by
    induction j with
    | nil =>
      refine ⟨[], t :: r, rfl, fun _ h => by (cases h), fun s r' h => by cases h; exact ht.1 _ rfl, ?_⟩
      cases t <;> first | rfl | skip
      exact punct_ne (by rintro rfl; exact ht.2.1 rfl) r
    | cons a j ih =>
      obtain ⟨cs, i, he, hc, hi, hp⟩ := ih fun t ht => hj t (by simp [ht])
      rcases hj a (by simp) with ha | rfl
      · refine ⟨a :: cs, i, by simp [he], ?_, hi, hp⟩
        intro t ht
        rcases List.mem_cons.1 ht with rfl | ht
        · exact ha
        · exact hc t ht
      · exact ⟨[], _, rfl, fun _ h => by (cases h), noComment_punct _ _, punct_ne (by decide) _⟩
  obtain ⟨cs, i, he, hc, hi, hp⟩ := key
  exact ⟨texts cs, i, by rw [he]; exact meta_eat hc hi, hp⟩

theorem junk_meta {j : List MacroToken} (hj : Junk j) {t : MacroToken} (ht : TyStop t) (r : List MacroToken) :
    ∃ c j', «meta» (j ++ t :: r) = some (c, j' ++ t :: r) ∧ Junk j' ∧ j'.length ≤ j.length := by
  have key : ∃ cs j', j = cs ++ j' ∧ Comments cs ∧ Junk j' ∧ PlainStart (j' ++ t :: r) := by
    induction j with
    | nil => exact ⟨[], [], rfl, fun _ h => by (cases h), fun _ h => by (cases h), fun s r' h => by cases h; exact ht.1 _ rfl⟩
    | cons a j ih =>
      obtain ⟨cs, j', he, hc, hi, hp⟩ := ih fun t ht => hj t (by simp [ht])
      rcases hj a (by simp) with ha | rfl
      · refine ⟨a :: cs, j', by simp [he], ?_, hi, hp⟩
        intro t ht
        rcases List.mem_cons.1 ht with rfl | ht
        · exact ha
        · exact hc t ht
      · exact ⟨[], _, rfl, fun _ h => by (cases h), hj, noComment_punct _ _⟩
  obtain ⟨cs, j', rfl, hc, hj', hp⟩ := key
  exact ⟨texts cs, j', by rw [List.append_assoc]; exact meta_eat hc hp, hj', by simp⟩

theorem stars (n : Nat) : ∀ {j : List MacroToken}, j.length ≤ n → Junk j → ∀ {t : MacroToken}, TyStop t → ∀ (r : List MacroToken),
    ∃ l j', many0 (preceded (seq (punct c!"*") «meta») (opt constVolatile)) (j ++ t :: r) = some (l, j' ++ t :: r) ∧ Junk j' := by
  have hs : Shrinks (preceded (seq (punct c!"*") «meta») (opt constVolatile)) :=
    .preceded (.seq (strict_punct _).shrinks shrinks_meta) (.opt eats_constVolatile.shrinks)
  induction n with
  | zero =>
    intro j hn hj t ht r
    obtain rfl : j = [] := List.length_eq_zero_iff.1 (by omega)
    refine ⟨[], [], ?_, hj⟩
    rw [many0_eq hs]
    have : punct c!"*" (t :: r) = none := by
      cases t <;> first | rfl | skip
      exact punct_ne (by rintro rfl; exact ht.2.2.1 rfl) r
    simp [preceded, map, seq, this]
  | succ n ih =>
    intro j hn hj t ht r
    cases j with
    | nil => exact ih (by simp) hj ht r
    | cons a j =>
      rcases hj a (by simp) with ha | rfl
      · obtain ⟨s, rfl⟩ := isRemark_inv ha
        refine ⟨[], .comment s :: j, ?_, hj⟩
        rw [many0_eq hs]
        rfl
      · have hj' : Junk j := fun t ht => hj t (by simp [ht])
        obtain ⟨c, j₂, hm, hj₂, hlen⟩ := junk_meta hj' ht r
        simp only [List.length_cons] at hn
        obtain ⟨l, j₃, h3, hj₃⟩ := ih (j := j₂) (by omega) hj₂ ht r
        have hc : constVolatile (j₂ ++ t :: r) = none := by
          cases j₂ with
          | nil => exact constVolatile_none (fun r' h => by cases h; exact ht.2.2.2.1 rfl) (fun r' h => by cases h; exact ht.2.2.2.2 rfl)
          | cons b j₂ =>
            rcases hj₂ b (by simp) with hb | rfl
            · obtain ⟨s, rfl⟩ := isRemark_inv hb
              exact constVolatile_none (by simp) (by simp)
            · exact constVolatile_none (by simp) (by simp)
        have hp : preceded (seq (punct c!"*") «meta») (opt constVolatile) (.punct c!"*" :: j ++ t :: r) = some (none, j₂ ++ t :: r) := by
          simp only [List.cons_append, preceded, map, seq, punct_self, hm, opt, hc]
        refine ⟨none :: l, j₃, ?_, hj₃⟩
        rw [many0_eq hs, hp]
        dsimp only
        rw [if_neg (by simp; omega), h3]

/-- An expression in parentheses is not a type in parentheses. -/
theorem notType (E : Env) {ℓ : Nat} {ts : List MacroToken} {e : Expr} (h : GramC ℓ ts e)
    (hb : ∀ t n, Name t n → ts ≠ [t]) {cs : List MacroToken} (hc : Comments cs) (rest : List MacroToken) :
    parenthesized (parseTy E) (.punct c!"(" :: (cs ++ (ts ++ rest))) = none := by
  have hm : «meta» (cs ++ (ts ++ rest)) = some (texts cs, ts ++ rest) := meta_eat hc ((gram_start h).noComment _)
  obtain ⟨t, u, rfl, _⟩ := (gram_start h).2
  suffices hx : parseTy E (t :: u ++ rest) = none ∨
      ∃ T j t' r, parseTy E (t :: u ++ rest) = some (T, j ++ t' :: r) ∧ Junk j ∧ TyStop t' by
    rcases hx with hx | ⟨T, j, t', r, hx, hj, ht'⟩
    · simp only [parenthesized, delimited, terminated, preceded, map, seq, punct_self, hm, hx]
    · obtain ⟨c, i, hm', hp⟩ := junk_close hj ht' r
      simp only [parenthesized, delimited, terminated, preceded, map, seq, punct_self, hm, hx, hm', hp]
  by_cases ht : NameLike t
  · rcases gram_cont h ht rfl with rfl | hcont
    · exfalso
      rcases gram_head h with ⟨t', n, u, h, hn⟩ | ⟨l, u, h⟩ | ⟨l, u, h⟩ | ⟨u, h⟩
      · cases h; exact hb _ _ hn rfl
      · cases h; exact absurd ht (by simp [NameLike])
      · cases h; exact absurd ht (by simp [NameLike])
      · cases h
    · right
      obtain ⟨⟨j, t', v, hj1, hj, ht'⟩, ds, p, r, hd, hds, hp⟩ := hcont.append rest
      obtain ⟨T, hT⟩ := tyBase_name E ht hds hp r
      rw [← hd, hj1] at hT
      obtain ⟨l, j', hs, hj'⟩ := stars j.length (Nat.le_refl _) hj ht' v
      refine ⟨l.foldl Ty.addPtr (T.qualifyOpt none), j', t', v, ?_, hj', ht'⟩
      rw [List.cons_append, hj1]
      simp only [parseTy, hT, map, hs]
  · left
    have : tyBase E (t :: (u ++ rest)) = none := by
      refine tyBase_other E ?_ _
      rcases gram_head h with ⟨t', n, u, h, hn⟩ | ⟨l, u, h⟩ | ⟨l, u, h⟩ | ⟨u, h⟩
      · cases h; exact absurd hn.like ht
      · cases h; exact .inr ⟨_, rfl⟩
      · cases h; exact .inl ⟨_, rfl⟩
      · cases h; exact absurd (.inl ⟨_, rfl, by decide⟩) ht
    simp only [parseTy, seq, List.cons_append, this]

/-! ## Types -/

theorem orders_comment (E : Env) (s : Str) (rest : List MacroToken) :
    (orders.filter fun x => SignFirst x.1 ∧ ¬ SignAlone x.1).map
      (fun x => seq (tyBase E) (opt constVolatile) (x.1.map .ident ++ .comment s :: rest)) =
    (orders.filter fun x => SignFirst x.1 ∧ ¬ SignAlone x.1).map
      (fun x => some ((.builtIn x.2, none), .comment s :: rest)) := by
  kernel_rfl

theorem intBase_comment (E : Env) {ws : List Str} {t : BuiltInType} (h : Spec.Denotes ws t)
    (hs : SignFirst ws) (ha : ¬ SignAlone ws) (s : Str) (rest : List MacroToken) :
    seq (tyBase E) (opt constVolatile) (ws.map .ident ++ .comment s :: rest) = some ((.builtIn t, none), .comment s :: rest) :=
  of_map_eq (orders_comment E s rest) (ws, t) (List.mem_filter.2 ⟨mem_orders h, by simpa using ⟨hs, ha⟩⟩)

theorem stars_close (rest : List MacroToken) {ds : List MacroToken} (hd : Comments ds) : ∀ k : Nat, ∃ ds', Comments ds' ∧
    many0 (preceded (seq (punct c!"*") «meta») (opt constVolatile)) (List.replicate k (.punct c!"*") ++ (ds ++ .punct c!")" :: rest)) =
      some (List.replicate k none, ds' ++ .punct c!")" :: rest) := by
  have hs : Shrinks (preceded (seq (punct c!"*") «meta») (opt constVolatile)) :=
    .preceded (.seq (strict_punct _).shrinks shrinks_meta) (.opt eats_constVolatile.shrinks)
  have h0 : many0 (preceded (seq (punct c!"*") «meta») (opt constVolatile)) (.punct c!")" :: rest) = some ([], .punct c!")" :: rest) := by
    rw [many0_eq hs]
    rfl
  intro k
  induction k with
  | zero =>
    refine ⟨ds, hd, ?_⟩
    cases ds with
    | nil => exact h0
    | cons t ds =>
      obtain ⟨s, rfl⟩ := isRemark_inv (hd t (by simp))
      rw [many0_eq hs]
      rfl
  | succ k ih =>
    have step : ∀ {i j : List MacroToken} {c : List Str}, «meta» i = some (c, j) → constVolatile j = none → j.length ≤ i.length →
        many0 (preceded (seq (punct c!"*") «meta») (opt constVolatile)) (.punct c!"*" :: i) =
          (many0 (preceded (seq (punct c!"*") «meta») (opt constVolatile)) j).map fun x => (none :: x.1, x.2) := by
      intro i j c hm hc hl
      have hp : preceded (seq (punct c!"*") «meta») (opt constVolatile) (.punct c!"*" :: i) = some (none, j) := by
        simp only [preceded, map, seq, punct_self, hm, opt, hc]
      rw [many0_eq hs, hp]
      dsimp only
      rw [if_neg (by simp only [List.length_cons]; omega)]
      cases many0 (preceded (seq (punct c!"*") «meta») (opt constVolatile)) j <;> rfl
    cases k with
    | zero =>
      refine ⟨[], fun _ h => by (cases h), ?_⟩
      show many0 _ (.punct c!"*" :: (ds ++ .punct c!")" :: rest)) = _
      rw [step (meta_eat hd (noComment_punct _ _)) rfl (by simp), h0]
      rfl
    | succ k =>
      obtain ⟨ds', hd', h'⟩ := ih
      refine ⟨ds', hd', ?_⟩
      rw [List.replicate_succ, List.cons_append, step (meta_none (by rw [List.replicate_succ]; exact noComment_punct _ _)) rfl (Nat.le_refl _), h']
      rfl

theorem typeName_aux (E : Env) {ts : List MacroToken} {t : Ty} (h : TypeName ts t) (rest : List MacroToken) {ds : List MacroToken}
    (hd : Comments ds) : ∀ k : Nat, ∃ ds', Comments ds' ∧
    parseTy E (ts ++ (List.replicate k (.punct c!"*") ++ (ds ++ .punct c!")" :: rest))) =
      some ((List.replicate k none).foldl Ty.addPtr t, ds' ++ .punct c!")" :: rest) := by
  have base : ∀ {us : List MacroToken} {T : Ty},
      (∀ p r, seq (tyBase E) (opt constVolatile) (us ++ .punct p :: r) = some ((T, none), .punct p :: r)) →
      (∀ s r, seq (tyBase E) (opt constVolatile) (us ++ .comment s :: r) = some ((T, none), .comment s :: r)) →
      ∀ k, ∃ ds', Comments ds' ∧ parseTy E (us ++ (List.replicate k (.punct c!"*") ++ (ds ++ .punct c!")" :: rest))) =
        some ((List.replicate k none).foldl Ty.addPtr T, ds' ++ .punct c!")" :: rest) := by
    intro us T hb hb' k
    have : seq (tyBase E) (opt constVolatile) (us ++ (List.replicate k (.punct c!"*") ++ (ds ++ .punct c!")" :: rest))) =
        some ((T, none), List.replicate k (.punct c!"*") ++ (ds ++ .punct c!")" :: rest)) := by
      cases k with
      | succ k => exact hb _ _
      | zero =>
        cases ds with
        | nil => exact hb _ _
        | cons t ds =>
          obtain ⟨s, rfl⟩ := isRemark_inv (hd t (by simp))
          exact hb' _ _
    obtain ⟨ds', hd', h'⟩ := stars_close rest hd k
    exact ⟨ds', hd', by simp only [parseTy, this, map, h', Ty.qualifyOpt]⟩
  induction h with
  | int h1 h2 h3 => exact base (intBase E h1 h2 h3) (intBase_comment E h1 h2 h3)
  | void => exact base (fun p r => rfl) fun p r => rfl
  | bool => exact base (fun p r => rfl) fun p r => rfl
  | float => exact base (fun p r => rfl) fun p r => rfl
  | double => exact base (fun p r => rfl) fun p r => rfl
  | @ptr ts t h ih =>
    intro k
    obtain ⟨ds', hd', this⟩ := ih (k + 1)
    rw [List.replicate_succ, List.cons_append] at this
    refine ⟨ds', hd', ?_⟩
    rw [List.append_assoc, List.singleton_append, this]
    rfl

/-- A type in parentheses. -/
theorem typeName_paren (E : Env) {cs ts ds : List MacroToken} {t : Ty} (hc : Comments cs) (h : TypeName ts t) (hd : Comments ds)
    (rest : List MacroToken) :
    parenthesized (parseTy E) (.punct c!"(" :: (cs ++ (ts ++ (ds ++ .punct c!")" :: rest)))) = some (t, rest) := by
  obtain ⟨ds', hd', h0⟩ := typeName_aux E h rest hd 0
  simp only [List.replicate_zero, List.nil_append, List.foldl_nil] at h0
  simp only [parenthesized, delimited, terminated, preceded, map, seq, punct_self, meta_eat hc (h.start _), h0,
    meta_eat hd' (noComment_punct _ _)]

end CMacro.Commented
