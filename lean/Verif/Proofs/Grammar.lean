import Verif.Spec.Grammar
import Verif.Proofs.ParseFuel
import Verif.Props.Codegen
import Verif.Props.Types

/-!
# The parser follows the grammar

Lemmas for property C35.
-/

namespace CMacro
open Parser Spec

/-! ## The parsers without a bound -/

/-- The parsers that are called recursively, with a bound that is always enough. -/
def knot (E : Env) : Rec :=
  ⟨fun i => (tie E (i.length + 1)).prec2 i, fun i => (tie E (i.length + 1)).prec13 i, parseExpr E⟩

theorem knot_agree (E : Env) (k : Nat) : AgreeRec k (tie E k) (knot E) := by
  refine ⟨fun j hj => ?_, fun j hj => ?_, fun j hj => tie_stable E hj⟩
  · exact (agree_tie E (j.length + 1) _ (j.length + 1) hj (Nat.le_refl _)).prec2 j (Nat.lt_succ_self _)
  · exact (agree_tie E (j.length + 1) _ (j.length + 1) hj (Nat.le_refl _)).prec13 j (Nat.lt_succ_self _)

theorem knot_expr (E : Env) (i : List MacroToken) : (knot E).expr i = prec14 E (knot E) i := parseExpr_eq E i

theorem knot_is (E : Env) : (knot E).expr = parseExpr E := by
  rw [knot]

theorem parseExpr_knot (E : Env) (i : List MacroToken) : parseExpr E i = prec14 E (knot E) i := by
  rw [← knot_is, knot_expr]

theorem knot_prec2 (E : Env) (i : List MacroToken) : (knot E).prec2 i = prec2 E (knot E) i :=
  agree_prec2 (eats_tie E _) (knot_agree E _) i (Nat.lt_succ_self _)

theorem knot_prec13 (E : Env) (i : List MacroToken) : (knot E).prec13 i = prec13 E (knot E) i :=
  agree_prec13 (eats_tie E _) (knot_agree E _) i (Nat.lt_succ_self _)

theorem eats_knot (E : Env) : EatsRec (knot E) :=
  ⟨fun i => (eats_tie E (i.length + 1)).prec2 i, fun i => (eats_tie E (i.length + 1)).prec13 i, eats_expr E⟩

/-! ## Single tokens -/

theorem punct_punct (p q : Str) (r : List MacroToken) : punct p (.punct q :: r) = if p = q then some ((), r) else none := by
  simp only [punct, mapOpt, takeOne, satisfy, if_true]
  by_cases h : p = q <;> simp [h]

theorem punct_self (p : Str) (r : List MacroToken) : punct p (.punct p :: r) = some ((), r) := by rw [punct_punct, if_pos rfl]

theorem punct_ne {p q : Str} (h : p ≠ q) (r : List MacroToken) : punct p (.punct q :: r) = none := by
  rw [punct_punct, if_neg h]

theorem punct_other {p : Str} {t : MacroToken} (h : ∀ q, t ≠ .punct q) (r : List MacroToken) : punct p (t :: r) = none := by
  cases t <;> first | rfl | exact absurd rfl (h _)

/-- Not a comment. -/
def PlainStart (i : List MacroToken) : Prop := ∀ s r, i ≠ .comment s :: r

theorem meta_none {i : List MacroToken} (h : PlainStart i) : «meta» i = some ([], i) := by
  have : comment i = none := by
    cases i with
    | nil => rfl
    | cons t i => cases t <;> first | rfl | exact absurd rfl (h _ _)
  unfold «meta» many0 many0F
  rw [this]

theorem noComment_punct (p : Str) (r : List MacroToken) : PlainStart (.punct p :: r) := by intro s r h; cases h
theorem noComment_nil : PlainStart [] := by intro s r h; cases h

theorem delim_punct {p : Str} {i : List MacroToken} (h : PlainStart i) : delimited «meta» (punct p) «meta» (.punct p :: i) = some ((), i) := by
  simp only [delimited, terminated, preceded, map, seq, meta_none (noComment_punct _ _), punct_self, meta_none h]

/-! ## What can follow -/

/-- The end, or a punctuator that is not one of these. -/
def Stop (ps : List Str) (i : List MacroToken) : Prop := i = [] ∨ ∃ p r, i = .punct p :: r ∧ p ∉ ps

theorem Stop.noComment {ps : List Str} {i : List MacroToken} (h : Stop ps i) : PlainStart i := by
  rcases h with rfl | ⟨p, r, rfl, _⟩
  · exact noComment_nil
  · exact noComment_punct _ _

theorem Stop.mono {ps qs : List Str} {i : List MacroToken} (h : Stop ps i) (hs : ∀ q ∈ qs, q ∈ ps) : Stop qs i := by
  rcases h with rfl | ⟨p, r, rfl, hp⟩
  · exact .inl rfl
  · exact .inr ⟨p, r, rfl, fun hq => hp (hs _ hq)⟩

theorem Stop.punct {ps : List Str} {i : List MacroToken} (h : Stop ps i) {p : Str} (hp : p ∈ ps) : CMacro.punct p i = none := by
  rcases h with rfl | ⟨q, r, rfl, hq⟩
  · rfl
  · exact punct_ne (by rintro rfl; exact hq hp) r

/-! ## The shape of expressions -/

/-- Does not continue a type. -/
def StarStop (t : MacroToken) : Prop :=
  (∀ s, t ≠ .comment s) ∧ t ≠ .punct c!"*" ∧ t ≠ .ident c!"const" ∧ t ≠ .ident c!"volatile"

/-- Does not continue or close a type. -/
def TyStop (t : MacroToken) : Prop :=
  (∀ s, t ≠ .comment s) ∧ t ≠ .punct c!")" ∧ t ≠ .punct c!"*" ∧ t ≠ .ident c!"const" ∧ t ≠ .ident c!"volatile"

theorem TyStop.star {t : MacroToken} (h : TyStop t) : StarStop t := ⟨h.1, h.2.2⟩

/-- Some `*`, then a token that does not continue a type. -/
def Start (ts : List MacroToken) : Prop := ∃ k t u, ts = List.replicate k (.punct c!"*") ++ t :: u ∧ TyStop t

theorem Start.append {ts : List MacroToken} (h : Start ts) (us : List MacroToken) : Start (ts ++ us) := by
  obtain ⟨k, t, u, rfl, ht⟩ := h
  exact ⟨k, t, u ++ us, by simp, ht⟩

theorem Start.of {t : MacroToken} (h : TyStop t) (us : List MacroToken) : Start (t :: us) := ⟨0, t, us, rfl, h⟩

theorem Start.star {ts : List MacroToken} (h : Start ts) : Start (.punct c!"*" :: ts) := by
  obtain ⟨k, t, u, rfl, ht⟩ := h
  exact ⟨k + 1, t, u, by simp [List.replicate_succ], ht⟩

theorem Start.noComment {ts : List MacroToken} (h : Start ts) (us : List MacroToken) : PlainStart (ts ++ us) := by
  obtain ⟨k, t, u, rfl, ht⟩ := h
  intro s r hs
  cases k with
  | zero => simp only [List.replicate_zero, List.nil_append, List.cons_append, List.cons.injEq] at hs; exact ht.1 _ hs.1
  | succ k => simp [List.replicate_succ] at hs

theorem tyStop_punct {p : Str} (h1 : p ≠ c!")") (h2 : p ≠ c!"*") : TyStop (.punct p) :=
  ⟨by simp, by simpa using h1, by simpa using h2, by simp, by simp⟩

theorem Spec.Name.tyStop {t : MacroToken} {n : IdentExpr} (h : Name t n) : TyStop t := by
  cases h with
  | ident hx =>
    refine ⟨by simp, by simp, by simp, ?_, ?_⟩ <;> intro h <;> cases h <;> exact hx (by decide)
  | arg => exact ⟨by simp, by simp, by simp, by simp, by simp⟩

theorem Spec.Gram.start {ℓ : Nat} {ts : List MacroToken} {e : Expr} : Gram ℓ ts e → Start ts
  | .name h => .of h.tyStop _
  | .lit => .of ⟨by simp, by simp, by simp, by simp, by simp⟩ _
  | .paren _ _ => .of (tyStop_punct (by decide) (by decide)) _
  | .sizeOf _ => .of ⟨by simp, by simp, by simp, by decide, by decide⟩ _
  | .call h _ => .of h.tyStop _
  | .index h _ => h.start.append _
  | .member h _ => h.start.append _
  | .arrow h _ => h.start.append _
  | .postInc h => h.start.append _
  | .postDec h => h.start.append _
  | .pre (p := p) hp h => by
    by_cases hs : p = c!"*"
    · subst hs; exact h.start.star
    · refine .of (tyStop_punct ?_ hs) _
      rintro rfl
      simp [prefixOps] at hp
  | .cast _ _ => .of (tyStop_punct (by decide) (by decide)) _
  | .bin _ h _ => h.start.append _
  | .cond h _ _ => h.start.append _
  | .assign _ h _ => h.start.append _
  | .up h _ => h.start

/-- What follows a name inside an expression. -/
def Cont (u : List MacroToken) : Prop :=
  ∃ k t v, u = List.replicate k (.punct c!"*") ++ t :: v ∧ TyStop t ∧ (k = 0 → ∃ p, t = .punct p ∧ p ≠ c!"##")

theorem Cont.append {u : List MacroToken} (h : Cont u) (w : List MacroToken) : Cont (u ++ w) := by
  obtain ⟨k, t, v, rfl, ht, hk⟩ := h
  exact ⟨k, t, v ++ w, by simp, ht, hk⟩

theorem Cont.of {p : Str} (h1 : p ≠ c!")") (h2 : p ≠ c!"*") (h3 : p ≠ c!"##") (w : List MacroToken) : Cont (.punct p :: w) :=
  ⟨0, _, w, rfl, tyStop_punct h1 h2, fun _ => ⟨p, rfl, h3⟩⟩

theorem Cont.star {ts : List MacroToken} (h : Start ts) : Cont (.punct c!"*" :: ts) := by
  obtain ⟨k, t, u, rfl, ht⟩ := h
  exact ⟨k + 1, t, u, by simp [List.replicate_succ], ht, by simp⟩

theorem Cont.op {p : Str} (h1 : p ≠ c!")") (h3 : p ≠ c!"##") {ts : List MacroToken} (h : Start ts) : Cont (.punct p :: ts) := by
  by_cases hs : p = c!"*"
  · subst hs; exact .star h
  · exact .of h1 hs h3 _

/-- A token that can be read as the name of a type. -/
def NameLike (t : MacroToken) : Prop := (∃ x, t = .ident x ∧ x ∉ tyKeywords) ∨ ∃ i, t = .arg i

theorem Spec.Name.like {t : MacroToken} {n : IdentExpr} (h : Name t n) : NameLike t := by
  cases h with
  | @ident x hx =>
    refine .inl ⟨x, rfl, fun h => hx ?_⟩
    simp only [tyKeywords, List.mem_cons, List.not_mem_nil, or_false] at h
    rcases h with rfl | rfl | rfl | rfl | rfl | rfl | rfl | rfl | rfl | rfl | rfl | rfl | rfl <;> decide
  | arg => exact .inr ⟨_, rfl⟩

theorem cont_append {t : MacroToken} {ts u w : List MacroToken} (hs : Start ts) (heq : ts ++ w = t :: u)
    (ih : ∀ u', ts = t :: u' → u' = [] ∨ Cont u') (hw : Cont w) : Cont u := by
  cases ts with
  | nil => obtain ⟨k, t, v, h, _⟩ := hs; cases k <;> simp at h
  | cons t' u' =>
    simp only [List.cons_append, List.cons.injEq] at heq
    obtain ⟨rfl, rfl⟩ := heq
    rcases ih u' rfl with rfl | hc
    · exact hw
    · exact hc.append _

theorem Spec.Gram.cont {ℓ : Nat} {ts : List MacroToken} {e : Expr} (h : Gram ℓ ts e) {t : MacroToken} (ht : NameLike t) :
    ∀ {u : List MacroToken}, ts = t :: u → u = [] ∨ Cont u := by
  match h with
  | .name h => intro u hu; cases hu; exact .inl rfl
  | .lit => intro u hu; cases hu; exact absurd ht (by simp [NameLike])
  | .paren _ _ => intro u hu; cases hu; exact absurd ht (by simp [NameLike])
  | .sizeOf _ => intro u hu; cases hu; exact .inr (.of (by decide) (by decide) (by decide) _)
  | .call h _ => intro u hu; cases hu; exact .inr (.of (by decide) (by decide) (by decide) _)
  | .index h _ =>
    intro u hu
    exact .inr (cont_append h.start hu (fun u' h' => h.cont ht h') (.of (by decide) (by decide) (by decide) _))
  | .member h _ =>
    intro u hu
    exact .inr (cont_append h.start hu (fun u' h' => h.cont ht h') (.of (by decide) (by decide) (by decide) _))
  | .arrow h _ =>
    intro u hu
    exact .inr (cont_append h.start hu (fun u' h' => h.cont ht h') (.of (by decide) (by decide) (by decide) _))
  | .postInc h =>
    intro u hu
    exact .inr (cont_append h.start hu (fun u' h' => h.cont ht h') (.of (by decide) (by decide) (by decide) _))
  | .postDec h =>
    intro u hu
    exact .inr (cont_append h.start hu (fun u' h' => h.cont ht h') (.of (by decide) (by decide) (by decide) _))
  | .pre _ _ => intro u hu; cases hu; exact absurd ht (by simp [NameLike])
  | .cast _ _ => intro u hu; cases hu; exact absurd ht (by simp [NameLike])
  | .bin hp h h' =>
    intro u hu
    refine .inr (cont_append h.start hu (fun u' h' => h.cont ht h') (.op ?_ ?_ h'.start)) <;>
    · rintro rfl; simp [binaryOps] at hp
  | .cond h h' _ =>
    intro u hu
    exact .inr (cont_append h.start hu (fun u' h' => h.cont ht h') (.of (by decide) (by decide) (by decide) _))
  | .assign hp h h' =>
    intro u hu
    refine .inr (cont_append h.start hu (fun u' h' => h.cont ht h') (.op ?_ ?_ h'.start)) <;>
    · rintro rfl; simp [assignOps] at hp
  | .up h _ => intro u hu; exact h.cont ht hu

/-- What an expression begins with. -/
def Head (ts : List MacroToken) : Prop :=
  (∃ t n u, ts = t :: u ∧ Name t n) ∨ (∃ l u, ts = .lit l :: u) ∨ (∃ p u, ts = .punct p :: u) ∨
    ∃ u, ts = .ident c!"sizeof" :: .punct c!"(" :: u

theorem Head.append {ts : List MacroToken} (h : Head ts) (w : List MacroToken) : Head (ts ++ w) := by
  rcases h with ⟨t, n, u, rfl, h⟩ | ⟨l, u, rfl⟩ | ⟨l, u, rfl⟩ | ⟨u, rfl⟩
  · exact .inl ⟨t, n, u ++ w, rfl, h⟩
  · exact .inr (.inl ⟨l, u ++ w, rfl⟩)
  · exact .inr (.inr (.inl ⟨l, u ++ w, rfl⟩))
  · exact .inr (.inr (.inr ⟨u ++ w, rfl⟩))

theorem Spec.Gram.head {ℓ : Nat} {ts : List MacroToken} {e : Expr} : Gram ℓ ts e → Head ts
  | .name h => .inl ⟨_, _, _, rfl, h⟩
  | .lit => .inr (.inl ⟨_, _, rfl⟩)
  | .paren _ _ => .inr (.inr (.inl ⟨_, _, rfl⟩))
  | .sizeOf _ => .inr (.inr (.inr ⟨_, rfl⟩))
  | .call h _ => .inl ⟨_, _, _, rfl, h⟩
  | .index h _ => h.head.append _
  | .member h _ => h.head.append _
  | .arrow h _ => h.head.append _
  | .postInc h => h.head.append _
  | .postDec h => h.head.append _
  | .pre _ _ => .inr (.inr (.inl ⟨_, _, rfl⟩))
  | .cast _ _ => .inr (.inr (.inl ⟨_, _, rfl⟩))
  | .bin _ h _ => h.head.append _
  | .cond h _ _ => h.head.append _
  | .assign _ h _ => h.head.append _
  | .up h _ => h.head

/-! ## Not a type -/

theorem constVolatile_none {i : List MacroToken} (h1 : ∀ r, i ≠ .ident c!"const" :: r) (h2 : ∀ r, i ≠ .ident c!"volatile" :: r) :
    constVolatile i = none := by
  have hc : keyword c!"const" i = none := by
    cases i with
    | nil => rfl
    | cons t i =>
      cases t <;> first | rfl | skip
      exact keyword_ne (by rintro rfl; exact h1 _ rfl)
  have hv : keyword c!"volatile" i = none := by
    cases i with
    | nil => rfl
    | cons t i =>
      cases t <;> first | rfl | skip
      exact keyword_ne (by rintro rfl; exact h2 _ rfl)
  simp [constVolatile, Parser.or, value, map, permutation, permGo, permStep, permDone, hc, hv]

theorem tyBase_name (E : Env) {t : MacroToken} (h : NameLike t) {p : Str} (hp : p ≠ c!"##") (r : List MacroToken) :
    ∃ T, seq (tyBase E) (opt constVolatile) (t :: .punct p :: r) = some ((T, none), .punct p :: r) := by
  have hp' : c!"##" ≠ p := fun h => hp h.symm
  rcases h with ⟨x, rfl, h⟩ | ⟨i, rfl⟩
  · simp only [Spec.tyKeywords, List.mem_cons, List.not_mem_nil, or_false, not_or] at h
    obtain ⟨a1, a2, a3, a4, a5, a6, a7, a8, a9, a10, a11, a12, a13⟩ := h
    refine ⟨.ident (.plain x) false, ?_⟩
    simp [tyBase, simpleTy, doubleTy, intTy, intTyLongLong, intTyLength, intTyPlain, identTy, seq, opt,
      constVolatile, Parser.or, value, permutation, permGo, permStep, permDone, keyword_ne, 
      map, mapOpt, terminated, a1, a2, a3, a4, a5, a6, a7, a8, a9, a10, a11, a12, a13, qualPart, optPart, intSignedness,
      intLength, kwPart, parseConcatIdent, macroArg, macroId, takeOne, satisfy, many0, many0F, preceded, delimited,
      «meta», comment, punct, hp', keyword, Ty.qualifyOpt]
  · refine ⟨.ident (.arg i) false, ?_⟩
    simp [tyBase, simpleTy, doubleTy, intTy, intTyLongLong, intTyLength, intTyPlain, identTy, seq, opt,
      constVolatile, Parser.or, value, permutation, permGo, permStep, permDone, 
      map, mapOpt, terminated, qualPart, optPart, intSignedness,
      intLength, kwPart, parseConcatIdent, macroArg, macroId, takeOne, satisfy, many0, many0F, preceded, delimited,
      «meta», comment, punct, hp', keyword, Ty.qualifyOpt]

theorem stars (k : Nat) {t : MacroToken} (ht : StarStop t) (r : List MacroToken) :
    many0 (preceded (seq (punct c!"*") «meta») (opt constVolatile)) (List.replicate k (.punct c!"*") ++ t :: r) =
      some (List.replicate k none, t :: r) := by
  have hs : Shrinks (preceded (seq (punct c!"*") «meta») (opt constVolatile)) :=
    .preceded (.seq (strict_punct _).shrinks shrinks_meta) (.opt eats_constVolatile.shrinks)
  induction k with
  | zero =>
    rw [many0_eq hs]
    have : punct c!"*" (t :: r) = none := by
      cases t <;> first | rfl | skip
      exact punct_ne (by rintro rfl; exact ht.2.1 rfl) r
    simp [preceded, map, seq, this]
  | succ k ih =>
    rw [many0_eq hs]
    have hn : ∀ s r', List.replicate k (MacroToken.punct c!"*") ++ t :: r ≠ s :: r' ∨ s = .punct c!"*" ∨ s = t := by
      intro s r'
      cases k with
      | zero => by_cases h : s = t <;> simp [h]; exact .inl fun h' => absurd h'.symm h
      | succ k => by_cases h : s = .punct c!"*" <;> simp [h, List.replicate_succ]; exact .inl fun h' => absurd h'.symm h
    have hm : «meta» (List.replicate k (MacroToken.punct c!"*") ++ t :: r) = some ([], List.replicate k (.punct c!"*") ++ t :: r) := by
      refine meta_none fun s r' h => ?_
      rcases hn (.comment s) r' with h' | h' | h'
      · exact h' h
      · cases h'
      · exact ht.1 _ h'.symm
    have hc : constVolatile (List.replicate k (MacroToken.punct c!"*") ++ t :: r) = none := by
      refine constVolatile_none (fun r' h => ?_) (fun r' h => ?_)
      · rcases hn _ r' with h' | h' | h'
        · exact h' h
        · cases h'
        · exact ht.2.2.1 h'.symm
      · rcases hn _ r' with h' | h' | h'
        · exact h' h
        · cases h'
        · exact ht.2.2.2 h'.symm
    have hp : preceded (seq (punct c!"*") «meta») (opt constVolatile) (.punct c!"*" :: (List.replicate k (.punct c!"*") ++ t :: r)) =
        some (none, List.replicate k (.punct c!"*") ++ t :: r) := by
      simp only [preceded, map, seq, punct_self, hm, opt, hc]
    rw [List.replicate_succ, List.cons_append, hp]
    dsimp only
    rw [if_neg (by simp), ih]
    rfl

theorem tyBase_other (E : Env) {t : MacroToken} (h : (∃ p, t = .punct p) ∨ ∃ l, t = .lit l) (r : List MacroToken) :
    tyBase E (t :: r) = none := by
  rcases h with ⟨p, rfl⟩ | ⟨p, rfl⟩ <;> rfl

/-- An expression in parentheses is not a type in parentheses. -/
theorem Spec.Gram.notType (E : Env) {ℓ : Nat} {ts : List MacroToken} {e : Expr} (h : Gram ℓ ts e)
    (hb : ∀ t n, Name t n → ts ≠ [t]) (rest : List MacroToken) :
    parenthesized (parseTy E) (.punct c!"(" :: (ts ++ .punct c!")" :: rest)) = none := by
  obtain ⟨t, u, rfl⟩ : ∃ t u, ts = t :: u := by
    obtain ⟨k, t, u, h, _⟩ := h.start
    cases k with
    | zero => exact ⟨_, _, h⟩
    | succ k => exact ⟨_, _, h⟩
  have hm : «meta» (t :: u ++ .punct c!")" :: rest) = some ([], t :: u ++ .punct c!")" :: rest) :=
    meta_none (h.start.noComment _)
  suffices hx : parseTy E (t :: u ++ .punct c!")" :: rest) = none ∨
      ∃ T t' r, parseTy E (t :: u ++ .punct c!")" :: rest) = some (T, t' :: r) ∧ TyStop t' by
    rcases hx with hx | ⟨T, t', r, hx, ht'⟩
    · simp only [parenthesized, delimited, terminated, preceded, map, seq, punct_self, hm, hx]
    · have hm' : «meta» (t' :: r) = some ([], t' :: r) := meta_none (by rintro s r' h; cases h; exact ht'.1 _ rfl)
      have hp : punct c!")" (t' :: r) = none := by
        cases t' <;> first | rfl | skip
        exact punct_ne (by rintro rfl; exact ht'.2.1 rfl) r
      simp only [parenthesized, delimited, terminated, preceded, map, seq, punct_self, hm, hx, hm', hp]
  by_cases ht : NameLike t
  · rcases h.cont ht rfl with rfl | ⟨k, t', v, rfl, ht', hk⟩
    · exfalso
      rcases h.head with ⟨t', n, u, h, hn⟩ | ⟨l, u, h⟩ | ⟨l, u, h⟩ | ⟨u, h⟩
      · cases h; exact hb _ _ hn rfl
      · cases h; exact absurd ht (by simp [NameLike])
      · cases h; exact absurd ht (by simp [NameLike])
      · cases h
    · right
      obtain ⟨p, r, hpr, hp⟩ : ∃ p r, List.replicate k (.punct c!"*") ++ t' :: (v ++ .punct c!")" :: rest) = .punct p :: r ∧ p ≠ c!"##" := by
        cases k with
        | zero => obtain ⟨p, rfl, hp⟩ := hk rfl; exact ⟨p, _, rfl, hp⟩
        | succ k => exact ⟨c!"*", _, rfl, by decide⟩
      obtain ⟨T, hT⟩ := tyBase_name E ht hp r
      rw [← hpr] at hT
      refine ⟨(List.replicate k none).foldl Ty.addPtr (T.qualifyOpt none), t', v ++ .punct c!")" :: rest, ?_, ht'⟩
      rw [List.cons_append, List.append_assoc, List.cons_append]
      simp only [parseTy, hT, map, stars k ht'.star]
  · left
    have : tyBase E (t :: (u ++ .punct c!")" :: rest)) = none := by
      refine tyBase_other E ?_ _
      rcases h.head with ⟨t', n, u, h, hn⟩ | ⟨l, u, h⟩ | ⟨l, u, h⟩ | ⟨u, h⟩
      · cases h; exact absurd hn.like ht
      · cases h; exact .inr ⟨_, rfl⟩
      · cases h; exact .inl ⟨_, rfl⟩
      · cases h; exact absurd (.inl ⟨_, rfl, by decide⟩) ht
    simp only [parseTy, seq, List.cons_append, this]

/-! ## Types -/

theorem typeName_aux (E : Env) {ts : List MacroToken} {t : Ty} (h : TypeName ts t) (rest : List MacroToken) : ∀ k : Nat,
    parseTy E (ts ++ (List.replicate k (.punct c!"*") ++ .punct c!")" :: rest)) =
      some ((List.replicate k none).foldl Ty.addPtr t, .punct c!")" :: rest) := by
  have base : ∀ {us : List MacroToken} {T : Ty},
      (∀ p r, seq (tyBase E) (opt constVolatile) (us ++ .punct p :: r) = some ((T, none), .punct p :: r)) →
      ∀ k, parseTy E (us ++ (List.replicate k (.punct c!"*") ++ .punct c!")" :: rest)) =
        some ((List.replicate k none).foldl Ty.addPtr T, .punct c!")" :: rest) := by
    intro us T hb k
    obtain ⟨p, r, hpr⟩ : ∃ p r, List.replicate k (.punct c!"*") ++ .punct c!")" :: rest = .punct p :: r := by
      cases k <;> exact ⟨_, _, rfl⟩
    have := hb p r
    rw [← hpr] at this
    have close : StarStop (.punct c!")") := ⟨by simp, by decide, by simp, by simp⟩
    simp only [parseTy, this, map, stars k close, Ty.qualifyOpt]
  induction h with
  | int h1 h2 h3 => exact base (intBase E h1 h2 h3)
  | void => exact base fun p r => rfl
  | bool => exact base fun p r => rfl
  | float => exact base fun p r => rfl
  | double => exact base fun p r => rfl
  | @ptr ts t h ih =>
    intro k
    have := ih (k + 1)
    rw [List.replicate_succ, List.cons_append] at this
    rw [List.append_assoc, List.singleton_append, this]
    rfl

theorem Spec.TypeName.start {ts : List MacroToken} {t : Ty} (h : TypeName ts t) (us : List MacroToken) : PlainStart (ts ++ us) := by
  induction h generalizing us with
  | @int ws t h1 _ _ =>
    have := mem_orders h1
    cases ws with
    | nil => exact absurd this (by
        simp only [orders, List.mem_flatMap, List.mem_map, List.mem_filter]
        rintro ⟨x, hx, ws, ⟨_, hp⟩, he⟩
        simp only [Prod.mk.injEq] at he
        rw [he.1] at hp
        have hp := (List.isPerm_iff.1 hp).nil_eq
        revert hx
        rw [show x = (x.1, x.2) from rfl, ← hp]
        simp [Spec.intTable])
    | cons w ws => intro s r h; cases h
  | void => intro s r h; cases h
  | bool => intro s r h; cases h
  | float => intro s r h; cases h
  | double => intro s r h; cases h
  | ptr h ih => rw [List.append_assoc]; exact ih _

/-- A type in parentheses. -/
theorem typeName_paren (E : Env) {ts : List MacroToken} {t : Ty} (h : TypeName ts t) (rest : List MacroToken) :
    parenthesized (parseTy E) (.punct c!"(" :: (ts ++ .punct c!")" :: rest)) = some (t, rest) := by
  have h0 := typeName_aux E h rest 0
  simp only [List.replicate_zero, List.nil_append, List.foldl_nil] at h0
  simp only [parenthesized, delimited, terminated, preceded, map, seq, punct_self, meta_none (h.start _), h0,
    meta_none (noComment_punct _ _)]

end CMacro
