import Verif.Proofs.Comments

/-!
# The parser follows the grammar with comments: the levels

Lemmas for property C82.
-/

namespace CMacro.Commented
open Parser Spec

/-! ## Factors -/

theorem concatIdent_name (E : Env) {t : MacroToken} {n : IdentExpr} (h : Name t n) {rest : List MacroToken} (hr : StopC (stops 0) rest) :
    parseConcatIdent E (t :: rest) = some (n, rest) := by
  have h1 : (Parser.or (map macroArg IdentExpr.arg) (map macroId IdentExpr.plain)) (t :: rest) = some (n, rest) := by
    cases h <;> rfl
  have h2 : many0 (preceded (delimited «meta» (punct c!"##") «meta») (contPart E)) rest = some ([], rest) := by
    have : preceded (delimited «meta» (punct c!"##") «meta») (contPart E) rest = none := by
      obtain ⟨cs, r, rfl, hc, hr⟩ := hr
      simp only [preceded, delimited, terminated, map, seq, meta_eat hc hr.noComment, hr.punct (show c!"##" ∈ stops 0 by decide)]
    simp only [many0, many0F, this]
  simp only [parseConcatIdent, h1, map, h2, List.foldl_nil]

theorem concatString_one (E : Env) {i rest : List MacroToken} {e : Expr} (h : concatPart E i = some (e, rest)) (hr : StopC (stops 0) rest) :
    parseConcatString E i = some (e, rest) := by
  have : preceded «meta» (concatPart E) rest = none := by
    obtain ⟨cs, r, rfl, hc, hr⟩ := hr
    simp only [preceded, map, seq, meta_eat hc hr.noComment, concatPart_stop E hr]
  simp only [parseConcatString, h, map, many0, many0F, this, List.foldl_nil]

theorem litChar_name {t : MacroToken} {n : IdentExpr} (h : Name t n) {rest : List MacroToken} (hr : StopC (stops 0) rest) :
    parseLitChar (t :: rest) = none := by
  have hr := hr.cases
  cases h with
  | arg => rfl
  | @ident x =>
    have hk : ∀ k, x ≠ k → keyword k (.ident x :: rest) = none := fun k h => keyword_ne h
    by_cases h1 : x = c!"u8"
    · subst h1; rcases hr with rfl | ⟨p, r, rfl, hp⟩ | ⟨s, r, rfl⟩ <;> rfl
    · by_cases h2 : x = c!"u"
      · subst h2; rcases hr with rfl | ⟨p, r, rfl, hp⟩ | ⟨s, r, rfl⟩ <;> rfl
      · by_cases h3 : x = c!"U"
        · subst h3; rcases hr with rfl | ⟨p, r, rfl, hp⟩ | ⟨s, r, rfl⟩ <;> rfl
        · by_cases h4 : x = c!"L"
          · subst h4; rcases hr with rfl | ⟨p, r, rfl, hp⟩ | ⟨s, r, rfl⟩ <;> rfl
          · have hc : charPrefixTok (.ident x :: rest) = none := by
              simp only [charPrefixTok, Parser.or, value, map, hk _ h1, hk _ h2, hk _ h3, hk _ h4]
            simp only [parseLitChar, Parser.or, mapOpt, seq, hc]
            rfl

theorem factor_name (E : Env) (R : Rec) {t : MacroToken} {n : IdentExpr} (h : Name t n) {rest : List MacroToken} (hr : StopC (stops 0) rest) :
    parseFactor E R (t :: rest) = some (.var n, rest) := by
  have hc : concatPart E (t :: rest) = some (.var n, rest) := by
    have h1 : parseLitString (t :: rest) = none := by cases h <;> rfl
    have h2 : parseStringify (t :: rest) = none := by cases h <;> rfl
    simp only [concatPart, Parser.or, map, h1, h2, concatIdent_name E h hr]
  simp only [parseFactor, Parser.or, map, preceded, seq, h.not_sizeof, litChar_name h hr, concatString_one E hc hr]

theorem factor_lit (E : Env) (R : Rec) (l : Lit) {rest : List MacroToken} (hr : StopC (stops 0) rest) :
    parseFactor E R (.lit l :: rest) = some (.lit l, rest) := by
  cases l with
  | char c => rfl
  | int n => rfl
  | float f => rfl
  | string s =>
    have hc : concatPart E (.lit (.string s) :: rest) = some (.lit (.string s), rest) := by
      have : parseLitString (.lit (.string s) :: rest) = some (s, rest) := by
        rcases hr.cases with rfl | ⟨p, r, rfl, hp⟩ | ⟨c, r, rfl⟩ <;>
        cases s <;> simp [parseLitString, many0, many0F, map, ordinaryTok, strTail, mapOpt, takeOne, satisfy, Parser.or, preceded, seq, opt, keyword]
      simp only [concatPart, Parser.or, map, this]
    have hl : parseLitChar (.lit (.string s) :: rest) = none := rfl
    have hk : keyword c!"sizeof" (.lit (.string s) :: rest) = none := rfl
    simp only [parseFactor, Parser.or, map, preceded, seq, hk, hl, concatString_one E hc hr]

theorem paren_of {α : Type} {p : TParser α} {cs ds i rest : List MacroToken} {a : α} (hc : Comments cs) (hi : PlainStart i)
    (hd : Comments ds) (h : p i = some (a, ds ++ .punct c!")" :: rest)) : parenthesized p (.punct c!"(" :: (cs ++ i)) = some (a, rest) := by
  simp only [parenthesized, delimited, terminated, preceded, map, seq, punct_self, meta_eat hc hi, h, meta_eat hd (noComment_punct _ _)]

theorem factor_paren (E : Env) (R : Rec) {cs ds i rest : List MacroToken} {e : Expr} (hc : Comments cs) (hi : PlainStart i) (hd : Comments ds)
    (h : R.expr i = some (e, ds ++ .punct c!")" :: rest)) : parseFactor E R (.punct c!"(" :: (cs ++ i)) = some (e, rest) := by
  have h0 := paren_of hc hi hd h
  generalize cs ++ i = j at h0 ⊢
  have h1 : parseConcatString E (.punct c!"(" :: j) = none := rfl
  have h2 : parseLit (.punct c!"(" :: j) = none := rfl
  have h3 : parseLitChar (.punct c!"(" :: j) = none := rfl
  have h4 : keyword c!"sizeof" (.punct c!"(" :: j) = none := rfl
  simp only [parseFactor, Parser.or, map, preceded, seq, h1, h2, h3, h4, h0]

/-! ## Postfix operators -/

theorem access_stop (E : Env) {i : List MacroToken} (h : StopC (stops 1) i) : parseAccess E (knot E) i = none := by
  obtain ⟨cs, r, rfl, hc, h⟩ := h
  have h1 := h.punct (show c!"(" ∈ stops 1 by decide)
  have h2 := h.punct (show c!"." ∈ stops 1 by decide)
  have h3 := h.punct (show c!"[" ∈ stops 1 by decide)
  have h4 := h.punct (show c!"->" ∈ stops 1 by decide)
  have h5 := h.punct (show c!"++" ∈ stops 1 by decide)
  have h6 := h.punct (show c!"--" ∈ stops 1 by decide)
  simp only [parseAccess, preceded, map, seq, meta_eat hc h.noComment, Parser.or, parenthesized, delimited, terminated, value, h1, h2, h3, h4, h5, h6]

theorem accLoop_stop (E : Env) {e : Expr} {b : Bool} {i : List MacroToken} (h : StopC (stops 1) i) :
    accLoop E (some (e, b)) i = some (e, i) := by
  simp only [accLoop, mapOpt, many0, many0F, access_stop E h, List.foldl_nil, Option.map_some]

theorem preceded_skip {α : Type} {bs : List MacroToken} (hb : Comments bs) {p : Str} (q : TParser α) (i : List MacroToken) :
    preceded «meta» q (bs ++ .punct p :: i) = preceded «meta» q (.punct p :: i) := by
  simp only [preceded, map, seq, meta_eat hb (noComment_punct _ _), meta_none (noComment_punct _ _)]
  cases q (.punct p :: i) <;> rfl

/-- Comments before a postfix operator. -/
theorem access_skip {E : Env} {bs : List MacroToken} (hb : Comments bs) {p : Str} {i r : List MacroToken} {x : Access}
    (h : parseAccess E (knot E) (.punct p :: i) = some (x, r)) : parseAccess E (knot E) (bs ++ .punct p :: i) = some (x, r) := by
  rw [← h]
  exact preceded_skip hb _ i

/-! ## Binary operators -/

theorem delim_op {n : Nat} {p : Str} {op : BinOp} (h : (n, p, op) ∈ binaryOps) {bs cs i : List MacroToken} (hb : Comments bs)
    (hc : Comments cs) (hi : PlainStart i) : delimited «meta» (opAt n) «meta» (bs ++ .punct p :: (cs ++ i)) = some (op, i) := by
  simp only [delimited, terminated, preceded, map, seq, meta_eat hb (noComment_punct _ _), opAt_mem h, meta_eat hc hi]

theorem binLoop_step {E : Env} {n : Nat} {p : Str} {op : BinOp} (h : (n + 1, p, op) ∈ binaryOps) {bs cs i r : List MacroToken}
    (hb : Comments bs) (hc : Comments cs) (hi : PlainStart i) {a b : Expr} (hx : lv E n i = some (b, r)) :
    binLoop E n a (bs ++ .punct p :: (cs ++ i)) = binLoop E n (.bin a op b) r := by
  have ho := eats_opAt (n + 1)
  have hv := eats_lv E n
  have hs : Shrinks (seq (delimited «meta» (opAt (n + 1)) «meta») (lv E n)) := (by eats : Eats NotLogic _).shrinks
  have hl := hv.shrinks _ _ _ hx
  unfold binLoop map
  rw [many0_eq hs]
  have : seq (delimited «meta» (opAt (n + 1)) «meta») (lv E n) (bs ++ .punct p :: (cs ++ i)) = some ((op, b), r) := by
    simp only [seq, delim_op h hb hc hi, hx]
  rw [this]
  dsimp only
  rw [if_neg (by simp only [List.length_append, List.length_cons]; omega)]
  cases many0 (seq (delimited «meta» (opAt (n + 1)) «meta») (lv E n)) r with
  | none => rfl
  | some y => simp only [List.foldl_cons]

theorem binLoop_stop {E : Env} {n : Nat} {i : List MacroToken} (h : StopC (stops (n + 1)) i) (e : Expr) : binLoop E n e i = some (e, i) := by
  have : seq (delimited «meta» (opAt (n + 1)) «meta») (lv E n) i = none := by
    obtain ⟨cs, r, rfl, hc, h⟩ := h
    simp only [delimited, terminated, preceded, map, seq, meta_eat hc h.noComment, opAt_stop h]
  simp only [binLoop, map, many0, many0F, this, List.foldl_nil]

/-! ## Arguments -/

theorem sepList0_cons {σ α β : Type} {sep : Parser σ β} {p : Parser σ α} (hs : Shrinks (preceded sep p)) {x : β} {s u r : List σ} {a : α}
    {as : List α} (hp : Shrinks p) (hsep : sep s = some (x, u)) (hl : u.length < s.length) (h : sepList0 sep p u = some (a :: as, r)) :
    many0 (preceded sep p) s = some (a :: as, r) := by
  unfold sepList0 at h
  split at h
  · cases h
  · rename_i b r' hb
    have hl := hp _ _ _ hb
    rw [many0_eq hs]
    have : preceded sep p s = some (b, r') := by simp only [preceded, map, seq, hsep, hb]
    rw [this]
    dsimp only
    rw [if_neg (by omega)]
    split at h
    · rename_i h2
      cases h
      rw [h2]
    · cases h

theorem gram_low (E : Env) {ℓ : Nat} {ts : List MacroToken} {e : Expr} (h : GramC ℓ ts e) : ℓ ≤ 1 → ∀ rest, Low E (ts ++ rest) := by
  match h with
  | .name h => intro _ rest; exact low_other E (by cases h <;> simp) _
  | .lit => intro _ rest; exact low_other E (by simp) _
  | .paren hc h hd hb =>
    intro _ rest
    rw [List.cons_append, List.append_assoc, List.append_assoc]
    exact ⟨notType E h hb hc _, prefixOp_none fun p op r hm h' => by cases h'; simp [prefixOps] at hm⟩
  | .sizeOf _ _ _ => intro _ rest; exact low_other E (by simp) _
  | .call h _ _ _ _ => intro _ rest; exact low_other E (by cases h <;> simp) _
  | .index h _ _ _ _ => intro _ rest; rw [List.append_assoc]; exact gram_low E h (by omega) _
  | .member h _ _ _ => intro _ rest; rw [List.append_assoc]; exact gram_low E h (by omega) _
  | .arrow h _ _ _ => intro _ rest; rw [List.append_assoc]; exact gram_low E h (by omega) _
  | .postInc h _ => intro _ rest; rw [List.append_assoc]; exact gram_low E h (by omega) _
  | .postDec h _ => intro _ rest; rw [List.append_assoc]; exact gram_low E h (by omega) _
  | .pre _ _ _ => intro h; omega
  | .cast _ _ _ _ => intro h; omega
  | .bin (ℓ := ℓ) hp _ _ _ _ => intro h; obtain rfl : ℓ = 0 := by omega
                                simp [binaryOps] at hp
  | .cond _ _ _ _ _ _ _ => intro h; omega
  | .assign _ _ _ _ _ => intro h; omega
  | .up h _ => intro hl rest; exact gram_low E h (by omega) rest

/-! ## Assignment -/

theorem assignLoop_stop {E : Env} {i : List MacroToken} (h : StopC (stops 12) i) :
    many0 (seq (delimited «meta» op14 «meta») (knot E).expr) i = some ([], i) := by
  have : seq (delimited «meta» op14 «meta») (knot E).expr i = none := by
    obtain ⟨cs, r, rfl, hc, h⟩ := h
    simp only [delimited, terminated, preceded, map, seq, meta_eat hc h.noComment, op14_stop h]
  simp only [many0, many0F, this]

/-! ## All levels -/

/-- The parser of the level reads the tokens as the tree, up to what cannot continue it. -/
def Reads (E : Env) : Nat → List MacroToken → Expr → Prop
  | 0, ts, e => ∀ rest, StopC (stops 0) rest → prec1 E (knot E) (ts ++ rest) = accLoop E (some (e, false)) rest
  | 1, ts, e => ∀ rest, StopC (stops 1) rest → lv E 1 (ts ++ rest) = some (e, rest)
  | 2, ts, e => ∀ rest, StopC (stops 2) rest → lv E 2 (ts ++ rest) = some (e, rest)
  | 11, ts, e => ∀ rest, StopC (stops 11) rest → prec13 E (knot E) (ts ++ rest) = some (e, rest)
  | 12, ts, e => ∀ rest, StopC (stops 12) rest → parseExpr E (ts ++ rest) = some (e, rest)
  | n + 1, ts, e => ∀ rest, StopC (stops n) rest → lv E (n + 1) (ts ++ rest) = binLoop E n e rest

theorem Reads.full {E : Env} {n : Nat} {ts : List MacroToken} {e : Expr} (h : Reads E n ts e) (h0 : 2 ≤ n) (h1 : n ≤ 10)
    {rest : List MacroToken} (hr : StopC (stops n) rest) : lv E n (ts ++ rest) = some (e, rest) := by
  by_cases h2 : n = 2
  · subst h2; exact h rest hr
  · obtain ⟨m, rfl⟩ : ∃ m, n = m + 1 := ⟨n - 1, by omega⟩
    have h' : ∀ rest, StopC (stops m) rest → lv E (m + 1) (ts ++ rest) = binLoop E m e rest := by
      unfold Reads at h
      split at h <;> first | omega | skip
      rename_i heq
      cases heq
      exact h
    rw [h' rest (hr.mono (stops_mono m (by omega))), binLoop_stop hr]

theorem Reads.of_bin {E : Env} {n : Nat} {ts : List MacroToken} {e : Expr} (h0 : 2 ≤ n) (h1 : n < 10)
    (h : ∀ rest, StopC (stops n) rest → lv E (n + 1) (ts ++ rest) = binLoop E n e rest) : Reads E (n + 1) ts e := by
  unfold Reads
  split <;> first | omega | skip
  rename_i heq
  cases heq
  exact h

theorem Reads.bin {E : Env} {n : Nat} {ts : List MacroToken} {e : Expr} (h0 : 2 ≤ n) (h1 : n < 10) (h : Reads E (n + 1) ts e)
    {rest : List MacroToken} (hr : StopC (stops n) rest) : lv E (n + 1) (ts ++ rest) = binLoop E n e rest := by
  unfold Reads at h
  split at h <;> first | omega | skip
  rename_i heq
  cases heq
  exact h rest hr

theorem prec14_of {E : Env} {i r : List MacroToken} {e : Expr} (h : prec13 E (knot E) i = some (e, r)) (hr : StopC (stops 12) r) :
    parseExpr E i = some (e, r) := by
  have : parseExpr E i = prec14 E (knot E) i := parseExpr_knot E i
  rw [this]
  unfold prec14
  rw [h]
  dsimp only
  rw [map, assignLoop_stop hr]
  rfl

theorem prec13_of {E : Env} {i r : List MacroToken} {e : Expr} (h : lv E 10 i = some (e, r)) (hr : StopC (stops 11) r) :
    prec13 E (knot E) i = some (e, r) := by
  rw [lv_ten] at h
  have : delimited «meta» (punct c!"?") «meta» r = none := by
    obtain ⟨cs, r, rfl, hc, hr⟩ := hr
    simp only [delimited, terminated, preceded, map, seq, meta_eat hc hr.noComment, hr.punct (show c!"?" ∈ stops 11 by decide)]
  unfold prec13
  rw [h]
  dsimp only
  rw [this]

theorem Reads.up {E : Env} {n : Nat} {ts : List MacroToken} {e : Expr} (h : Reads E n ts e) (hn : n < 12)
    (hl : n ≤ 1 → ∀ rest, Low E (ts ++ rest)) : Reads E (n + 1) ts e := by
  by_cases h0 : n = 0
  · subst h0
    intro rest hr
    show prec1 E (knot E) _ = _
    rw [h rest (hr.mono (stops_mono 0 (by decide))), accLoop_stop E hr]
  · by_cases h1 : n = 1
    · subst h1
      intro rest hr
      rw [prec2_low (hl (by omega) rest)]
      exact h rest (hr.mono (stops_mono 1 (by decide)))
    · by_cases h2 : n = 10
      · subst h2
        intro rest hr
        exact prec13_of (h.full (by decide) (by decide) (hr.mono (stops_mono 10 (by decide)))) hr
      · by_cases h3 : n = 11
        · subst h3
          intro rest hr
          exact prec14_of (h rest (hr.mono (stops_mono 11 (by decide)))) hr
        · exact .of_bin (by omega) (by omega) fun rest hr => lv_of (by omega) (h.full (by omega) (by omega) hr)

theorem access_call {E : Env} {i r : List MacroToken} {es : List Expr}
    (h : parenthesized (sepList0 (delimited «meta» (punct c!",") «meta») (knot E).expr) (.punct c!"(" :: i) = some (es, r)) :
    parseAccess E (knot E) (.punct c!"(" :: i) = some (.fn es, r) := by
  simp only [parseAccess, preceded, map, seq, meta_none (noComment_punct _ _), Parser.or, h]

theorem factor_sizeOf (E : Env) (R : Rec) {cs ts ds : List MacroToken} {t : Ty} (hc : Comments cs) (h : TypeName ts t) (hd : Comments ds)
    (rest : List MacroToken) :
    parseFactor E R (.ident c!"sizeof" :: .punct c!"(" :: (cs ++ (ts ++ (ds ++ .punct c!")" :: rest)))) = some (.sizeOf t, rest) := by
  simp only [parseFactor, Parser.or, map, preceded, seq, keyword_self, typeName_paren E hc h hd]

theorem access_index {E : Env} {cs i ds rest : List MacroToken} {e : Expr} (hc : Comments cs) (hi : PlainStart i) (hd : Comments ds)
    (hx : parseExpr E i = some (e, ds ++ .punct c!"]" :: rest)) :
    parseAccess E (knot E) (.punct c!"[" :: (cs ++ i)) = some (.array e, rest) := by
  simp only [parseAccess, preceded, map, seq, meta_none (noComment_punct _ _), Parser.or, parenthesized, delimited, terminated,
    punct_ne (show c!"(" ≠ c!"[" by decide), punct_ne (show c!"." ≠ c!"[" by decide), punct_self, meta_eat hc hi,
    show (knot E).expr = parseExpr E from knot_is E, hx, meta_eat hd (noComment_punct _ _)]

theorem access_member {E : Env} {cs : List MacroToken} (hc : Comments cs) {t : MacroToken} {n : IdentExpr} (hn : Name t n)
    {rest : List MacroToken} (hr : StopC (stops 0) rest) :
    parseAccess E (knot E) (.punct c!"." :: (cs ++ t :: rest)) = some (.field n false, rest) := by
  have hm : «meta» (cs ++ t :: rest) = some (texts cs, t :: rest) := meta_eat hc ((Start.of hn.tyStop []).noComment rest)
  simp only [parseAccess, preceded, map, seq, meta_none (noComment_punct _ _), Parser.or, parenthesized, delimited, terminated,
    punct_ne (show c!"(" ≠ c!"." by decide), punct_self, hm, concatIdent_name E hn hr]

theorem access_arrow {E : Env} {cs : List MacroToken} (hc : Comments cs) {t : MacroToken} {n : IdentExpr} (hn : Name t n)
    {rest : List MacroToken} (hr : StopC (stops 0) rest) :
    parseAccess E (knot E) (.punct c!"->" :: (cs ++ t :: rest)) = some (.field n true, rest) := by
  have hm : «meta» (cs ++ t :: rest) = some (texts cs, t :: rest) := meta_eat hc ((Start.of hn.tyStop []).noComment rest)
  simp only [parseAccess, preceded, map, seq, meta_none (noComment_punct _ _), Parser.or, parenthesized, delimited, terminated,
    punct_ne (show c!"(" ≠ c!"->" by decide), punct_ne (show c!"." ≠ c!"->" by decide), punct_ne (show c!"[" ≠ c!"->" by decide),
    punct_self, hm, concatIdent_name E hn hr]

theorem prec2_pre {E : Env} {p : Str} {op : UnOp} (hp : (p, op) ∈ prefixOps) {cs i r : List MacroToken} {e : Expr} (hc : Comments cs)
    (hi : PlainStart i) (h : lv E 2 i = some (e, r)) : lv E 2 (.punct p :: (cs ++ i)) = some (.un op e, r) := by
  have hk : (knot E).prec2 i = some (e, r) := (knot_prec2 E i).trans h
  have hn : parenthesized (parseTy E) (.punct p :: (cs ++ i)) = none :=
    parenTy_other E (by rintro ⟨⟩; simp [prefixOps] at hp) _
  show prec2 E (knot E) _ = _
  simp only [prec2, Parser.or, map, seq, hn, terminated, prefixOp_mem hp, meta_eat hc hi, hk]

theorem prec2_cast {E : Env} {cs us ds : List MacroToken} {t : Ty} (hc : Comments cs) (ht : TypeName us t) (hd : Comments ds)
    {i r : List MacroToken} {e : Expr} (h : lv E 2 i = some (e, r)) :
    lv E 2 (.punct c!"(" :: (cs ++ (us ++ (ds ++ .punct c!")" :: i)))) = some (.cast t e, r) := by
  have hk : (knot E).prec2 i = some (e, r) := (knot_prec2 E i).trans h
  show prec2 E (knot E) _ = _
  simp only [prec2, Parser.or, map, seq, typeName_paren E hc ht hd, hk]

theorem prec13_cond {E : Env} {i b₁ c₁ j b₂ c₂ k r : List MacroToken} {c a b : Expr} (hb₁ : Comments b₁) (hc₁ : Comments c₁)
    (hb₂ : Comments b₂) (hc₂ : Comments c₂) (h : lv E 10 i = some (c, b₁ ++ .punct c!"?" :: (c₁ ++ j))) (hj : PlainStart j)
    (h' : parseExpr E j = some (a, b₂ ++ .punct c!":" :: (c₂ ++ k))) (hk : PlainStart k) (h'' : prec13 E (knot E) k = some (b, r)) :
    prec13 E (knot E) i = some (.ternary c a b, r) := by
  rw [lv_ten] at h
  have h3 : (knot E).prec13 k = some (b, r) := (knot_prec13 E k).trans h''
  have h4 : (knot E).expr j = some (a, b₂ ++ .punct c!":" :: (c₂ ++ k)) := by rw [knot_is]; exact h'
  have h5 : map (seq (knot E).expr (preceded (delimited «meta» (punct c!":") «meta») (knot E).prec13))
      (fun (t, f) => Expr.ternary c t f) j = some (.ternary c a b, r) := by
    simp only [map, seq, h4, preceded, delim_punct hb₂ hc₂ hk, h3]
  unfold prec13
  rw [h]
  dsimp only
  rw [delim_punct hb₁ hc₁ hj]
  exact h5

theorem prec14_assign {E : Env} {i bs cs j r : List MacroToken} {p : Str} {op : BinOp} {a b : Expr} (hp : (p, op) ∈ assignOps)
    (hb : Comments bs) (hc : Comments cs) (h : prec13 E (knot E) i = some (a, bs ++ .punct p :: (cs ++ j))) (hj : PlainStart j)
    (h' : parseExpr E j = some (b, r)) (hr : StopC (stops 12) r) : parseExpr E i = some (.bin a op b, r) := by
  have he : parseExpr E i = prec14 E (knot E) i := parseExpr_knot E i
  have hk : (knot E).expr j = some (b, r) := by rw [knot_is]; exact h'
  have hl := (eats_expr E).shrinks _ _ _ h'
  have hs : Shrinks (seq (delimited «meta» op14 «meta») (knot E).expr) := .seq strict_op14.shrinks (eats_expr E).shrinks
  have h1 : seq (delimited «meta» op14 «meta») (knot E).expr (bs ++ .punct p :: (cs ++ j)) = some ((op, b), r) := by
    simp only [delimited, terminated, preceded, map, seq, meta_eat hb (noComment_punct _ _), op14_mem hp, meta_eat hc hj, hk]
  rw [he]
  unfold prec14
  rw [h]
  dsimp only
  rw [map, many0_eq hs, h1]
  dsimp only
  rw [if_neg (by simp only [List.length_append, List.length_cons]; omega), assignLoop_stop hr]
  rfl

/-- The arguments of a call are read up to the closing parenthesis. -/
def ListReads (E : Env) (ts : List MacroToken) (es : List Expr) (rest ds : List MacroToken) : Prop :=
  (ts = [] ∧ es = []) ∨ (es ≠ [] ∧ PlainStart (ts ++ (ds ++ .punct c!")" :: rest)) ∧
    sepList0 (delimited «meta» (punct c!",") «meta») (knot E).expr (ts ++ (ds ++ .punct c!")" :: rest)) =
      some (es, ds ++ .punct c!")" :: rest))

theorem args_paren (E : Env) {ts : List MacroToken} {es : List Expr} {rest cs ds : List MacroToken} (h : ListReads E ts es rest ds)
    (hc : Comments cs) (hd : Comments ds) : parenthesized (sepList0 (delimited «meta» (punct c!",") «meta») (knot E).expr)
      (.punct c!"(" :: (cs ++ (ts ++ (ds ++ .punct c!")" :: rest)))) = some (es, rest) := by
  rcases h with ⟨rfl, rfl⟩ | ⟨_, h1, h2⟩
  · have : sepList0 (delimited «meta» (punct c!",") «meta») (knot E).expr (.punct c!")" :: rest) = some ([], [] ++ .punct c!")" :: rest) := by
      have : (knot E).expr (.punct c!")" :: rest) = none := expr_close E rest
      simp only [List.nil_append, sepList0, this]
    rw [List.nil_append, ← List.append_assoc]
    exact paren_of (Comments.append hc hd) (noComment_punct _ _) (by simp [Comments]) this
  · exact paren_of hc h1 hd h2

mutual

theorem gram_reads (E : Env) {ℓ : Nat} {ts : List MacroToken} {e : Expr} : GramC ℓ ts e → Reads E ℓ ts e
  | .name h => fun rest hr => prec1_of (factor_name E _ h hr)
  | .lit => fun rest hr => prec1_of (factor_lit E _ _ hr)
  | .paren hc h hd hb => fun rest hr => by
    simp only [List.cons_append, List.append_assoc, List.nil_append]
    exact prec1_of (factor_paren E _ hc ((gram_start h).noComment _) hd (gram_reads E h _ (stop_punct (by decide) hd _)))
  | .sizeOf hc h hd => fun rest hr => by
    simp only [List.cons_append, List.append_assoc, List.nil_append]
    exact prec1_of (factor_sizeOf E _ hc h hd _)
  | .call h hb hc ha hd => fun rest hr => by
    simp only [List.cons_append, List.append_assoc, List.nil_append]
    rw [prec1_of (factor_name E _ h (stop_punct (by decide) hb _))]
    rw [accLoop_step E (access_skip hb (access_call (args_paren E (args_reads E ha rest _ hd) hc hd))) (by simp; omega)]
    rfl
  | .index h hb hc hi hd => fun rest hr => by
    simp only [List.cons_append, List.append_assoc, List.nil_append]
    rw [gram_reads E h _ (stop_punct (by decide) hb _),
      accLoop_step E (access_skip hb (access_index hc ((gram_start hi).noComment _) hd (gram_reads E hi _ (stop_punct (by decide) hd _))))
        (by simp; omega)]
    rfl
  | .member h hb hc hn => fun rest hr => by
    simp only [List.cons_append, List.append_assoc, List.nil_append]
    rw [gram_reads E h _ (stop_punct (by decide) hb _),
      accLoop_step E (access_skip hb (access_member hc hn hr)) (by simp only [List.length_append, List.length_cons]; omega)]
    rfl
  | .arrow h hb hc hn => fun rest hr => by
    simp only [List.cons_append, List.append_assoc, List.nil_append]
    rw [gram_reads E h _ (stop_punct (by decide) hb _),
      accLoop_step E (access_skip hb (access_arrow hc hn hr)) (by simp only [List.length_append, List.length_cons]; omega)]
    rfl
  | .postInc h hb => fun rest hr => by
    simp only [List.cons_append, List.append_assoc, List.nil_append]
    show prec1 E (knot E) _ = _
    rw [gram_reads E h _ (stop_punct (by decide) hb _), accLoop_step E (access_skip hb access_inc) (by simp; omega)]
    exact accLoop_stop E hr
  | .postDec h hb => fun rest hr => by
    simp only [List.cons_append, List.append_assoc, List.nil_append]
    show prec1 E (knot E) _ = _
    rw [gram_reads E h _ (stop_punct (by decide) hb _), accLoop_step E (access_skip hb access_dec) (by simp; omega)]
    exact accLoop_stop E hr
  | .pre hp hc h => fun rest hr => by
    rw [List.cons_append, List.append_assoc]
    exact prec2_pre hp hc ((gram_start h).noComment _) (gram_reads E h rest hr)
  | .cast hc ht hd h => fun rest hr => by
    simp only [List.cons_append, List.append_assoc]
    exact prec2_cast hc ht hd (gram_reads E h rest hr)
  | .bin hp h hb hc h' => .of_bin (binOp_level hp).1 (binOp_level hp).2.1 fun rest hr => by
    have hl := binOp_level hp
    simp only [List.cons_append, List.append_assoc]
    rw [(gram_reads E h).bin hl.1 hl.2.1 (stop_punct hl.2.2 hb _),
      binLoop_step hp hb hc ((gram_start h').noComment _) ((gram_reads E h').full hl.1 (by omega) hr)]
  | .cond h hb₁ hc₁ h' hb₂ hc₂ h'' => fun rest hr => by
    simp only [List.cons_append, List.append_assoc]
    exact prec13_cond hb₁ hc₁ hb₂ hc₂ ((gram_reads E h).full (by decide) (by decide) (stop_punct (by decide) hb₁ _))
      ((gram_start h').noComment _) (gram_reads E h' _ (stop_punct (by decide) hb₂ _)) ((gram_start h'').noComment _)
      (gram_reads E h'' rest hr)
  | .assign hp h hb hc h' => fun rest hr => by
    simp only [List.cons_append, List.append_assoc]
    have := (((((((((gram_reads E h).up (by decide) (by simp)).up (by decide) (by simp)).up (by decide) (by simp)).up (by decide) (by simp)).up
      (by decide) (by simp)).up (by decide) (by simp)).up (by decide) (by simp)).up (by decide) (by simp)).up (by decide) (by simp)
    exact prec14_assign hp hb hc (this _ (stop_punct (assignOp_level hp) hb _)) ((gram_start h').noComment _) (gram_reads E h' rest hr) hr
  | .up h hl => (gram_reads E h).up hl (gram_low E h)

theorem args_reads (E : Env) {ts : List MacroToken} {es : List Expr} : ArgsC ts es → ∀ (rest ds : List MacroToken), Comments ds →
    ListReads E ts es rest ds
  | .none => fun rest ds hd => .inl ⟨rfl, rfl⟩
  | .one h => fun rest ds hd => .inr ⟨by simp, (gram_start h).noComment _, by
      have h1 := gram_reads E h (ds ++ .punct c!")" :: rest) (stop_punct (by decide) hd _)
      have h2 : preceded (delimited «meta» (punct c!",") «meta») (knot E).expr (ds ++ .punct c!")" :: rest) = none := by
        simp only [preceded, delimited, terminated, map, seq, meta_eat hd (noComment_punct _ _), punct_ne (show c!"," ≠ c!")" by decide)]
      rw [knot_is] at h2 ⊢
      simp only [sepList0, h1, many0, many0F, h2]⟩
  | .more (us := us) (cs := cs) h hb hc h' => fun rest ds hd => .inr ⟨by simp, by rw [List.append_assoc]; exact (gram_start h).noComment _, by
      simp only [List.cons_append, List.append_assoc]
      rcases args_reads E h' rest ds hd with ⟨_, h0⟩ | ⟨_, hp, hs⟩
      · cases h0
      · have h1 := gram_reads E h _ (stop_punct (p := c!",") (by decide) hb (cs ++ (us ++ (ds ++ .punct c!")" :: rest))))
        have hsh := (eats_expr E).shrinks
        have h2 := sepList0_cons (.preceded (strict_mid c!",").shrinks hsh) hsh (delim_punct hb hc hp) (by simp; omega) hs
        rw [sepList0, knot_is, h1]
        dsimp only
        rw [h2]⟩

end

end CMacro.Commented
