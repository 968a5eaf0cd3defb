import Verif.Proofs.Grammar

/-!
# The parser follows the grammar: the levels

Lemmas for property C35.
-/

namespace CMacro
open Parser Spec

/-- Punctuators that continue an expression of a level. -/
def stops : Nat → List Str
  | 0 => [c!"#", c!"##"]
  | n + 1 => [c!"#", c!"##", c!"(", c!".", c!"[", c!"->", c!"++", c!"--"] ++
    ((binaryOps.filter fun x => x.1 ≤ n + 1).map fun x => x.2.1) ++
    (if n + 1 ≥ 11 then [c!"?"] else []) ++ (if n + 1 ≥ 12 then assignOps.map fun x => x.1 else [])

theorem stops_mono : ∀ n < 12, ∀ p ∈ stops n, p ∈ stops (n + 1) := by decide

/-! ## Factors -/

theorem concatIdent_name (E : Env) {t : MacroToken} {n : IdentExpr} (h : Name t n) {rest : List MacroToken} (hr : Stop (stops 0) rest) :
    parseConcatIdent E (t :: rest) = some (n, rest) := by
  have h1 : (Parser.or (map macroArg IdentExpr.arg) (map macroId IdentExpr.plain)) (t :: rest) = some (n, rest) := by
    cases h <;> rfl
  have h2 : many0 (preceded (delimited «meta» (punct c!"##") «meta») (contPart E)) rest = some ([], rest) := by
    have : preceded (delimited «meta» (punct c!"##") «meta») (contPart E) rest = none := by
      simp only [preceded, delimited, terminated, map, seq, meta_none hr.noComment, hr.punct (show c!"##" ∈ stops 0 by decide)]
    simp only [many0, many0F, this]
  simp only [parseConcatIdent, h1, map, h2, List.foldl_nil]

theorem concatPart_stop (E : Env) {rest : List MacroToken} (hr : Stop (stops 0) rest) : concatPart E rest = none := by
  have h := hr.punct (show c!"#" ∈ stops 0 by decide)
  rcases hr with rfl | ⟨p, r, rfl, hp⟩
  · rfl
  · have hs : parseStringify (.punct p :: r) = none := by
      simp only [parseStringify, preceded, terminated, map, seq, h]
    simp only [concatPart, Parser.or, map, hs, show parseLitString (.punct p :: r) = none from rfl,
      show parseConcatIdent E (.punct p :: r) = none from rfl]

theorem concatString_one (E : Env) {i rest : List MacroToken} {e : Expr} (h : concatPart E i = some (e, rest)) (hr : Stop (stops 0) rest) :
    parseConcatString E i = some (e, rest) := by
  have : preceded «meta» (concatPart E) rest = none := by
    simp only [preceded, map, seq, meta_none hr.noComment, concatPart_stop E hr]
  simp only [parseConcatString, h, map, many0, many0F, this, List.foldl_nil]

theorem Spec.Name.not_sizeof {t : MacroToken} {n : IdentExpr} (h : Name t n) (r : List MacroToken) : keyword c!"sizeof" (t :: r) = none := by
  cases h with
  | ident hx => exact keyword_ne (by rintro rfl; exact hx (by decide))
  | arg => rfl

theorem litChar_name {t : MacroToken} {n : IdentExpr} (h : Name t n) {rest : List MacroToken} (hr : Stop (stops 0) rest) :
    parseLitChar (t :: rest) = none := by
  cases h with
  | arg => rfl
  | @ident x =>
    have hk : ∀ k, x ≠ k → keyword k (.ident x :: rest) = none := fun k h => keyword_ne h
    by_cases h1 : x = c!"u8"
    · subst h1; rcases hr with rfl | ⟨p, r, rfl, hp⟩ <;> rfl
    · by_cases h2 : x = c!"u"
      · subst h2; rcases hr with rfl | ⟨p, r, rfl, hp⟩ <;> rfl
      · by_cases h3 : x = c!"U"
        · subst h3; rcases hr with rfl | ⟨p, r, rfl, hp⟩ <;> rfl
        · by_cases h4 : x = c!"L"
          · subst h4; rcases hr with rfl | ⟨p, r, rfl, hp⟩ <;> rfl
          · have hc : charPrefixTok (.ident x :: rest) = none := by
              simp only [charPrefixTok, Parser.or, value, map, hk _ h1, hk _ h2, hk _ h3, hk _ h4]
            simp only [parseLitChar, Parser.or, mapOpt, seq, hc]
            rfl

theorem factor_name (E : Env) (R : Rec) {t : MacroToken} {n : IdentExpr} (h : Name t n) {rest : List MacroToken} (hr : Stop (stops 0) rest) :
    parseFactor E R (t :: rest) = some (.var n, rest) := by
  have hc : concatPart E (t :: rest) = some (.var n, rest) := by
    have h1 : parseLitString (t :: rest) = none := by cases h <;> rfl
    have h2 : parseStringify (t :: rest) = none := by cases h <;> rfl
    simp only [concatPart, Parser.or, map, h1, h2, concatIdent_name E h hr]
  simp only [parseFactor, Parser.or, map, preceded, seq, h.not_sizeof, litChar_name h hr, concatString_one E hc hr]

theorem factor_lit (E : Env) (R : Rec) (l : Lit) {rest : List MacroToken} (hr : Stop (stops 0) rest) :
    parseFactor E R (.lit l :: rest) = some (.lit l, rest) := by
  cases l with
  | char c => rfl
  | int n => rfl
  | float f => rfl
  | string s =>
    have hc : concatPart E (.lit (.string s) :: rest) = some (.lit (.string s), rest) := by
      have : parseLitString (.lit (.string s) :: rest) = some (s, rest) := by
        rcases hr with rfl | ⟨p, r, rfl, hp⟩
        · cases s <;> simp [parseLitString, many0, many0F, map, ordinaryTok, strTail, mapOpt, takeOne, satisfy, Parser.or, preceded, seq, opt, keyword]
        · cases s <;> simp [parseLitString, many0, many0F, map, ordinaryTok, strTail, mapOpt, takeOne, satisfy, Parser.or, preceded, seq, opt, keyword]
      simp only [concatPart, Parser.or, map, this]
    have hl : parseLitChar (.lit (.string s) :: rest) = none := rfl
    have hk : keyword c!"sizeof" (.lit (.string s) :: rest) = none := rfl
    simp only [parseFactor, Parser.or, map, preceded, seq, hk, hl, concatString_one E hc hr]

theorem paren_of {α : Type} {p : TParser α} {i rest : List MacroToken} {a : α} (hi : PlainStart i)
    (h : p i = some (a, .punct c!")" :: rest)) : parenthesized p (.punct c!"(" :: i) = some (a, rest) := by
  simp only [parenthesized, delimited, terminated, preceded, map, seq, punct_self, meta_none hi, h, meta_none (noComment_punct _ _)]

theorem factor_paren (E : Env) (R : Rec) {i rest : List MacroToken} {e : Expr} (hi : PlainStart i)
    (h : R.expr i = some (e, .punct c!")" :: rest)) : parseFactor E R (.punct c!"(" :: i) = some (e, rest) := by
  have h1 : parseConcatString E (.punct c!"(" :: i) = none := rfl
  have h2 : parseLit (.punct c!"(" :: i) = none := rfl
  have h3 : parseLitChar (.punct c!"(" :: i) = none := rfl
  have h4 : keyword c!"sizeof" (.punct c!"(" :: i) = none := rfl
  simp only [parseFactor, Parser.or, map, preceded, seq, h1, h2, h3, h4, paren_of hi h]

/-! ## Postfix operators -/

/-- The rest of `parse_term_prec1`. -/
def accLoop (E : Env) (a : Option (Expr × Bool)) : TParser Expr :=
  mapOpt (many0 (parseAccess E (knot E))) fun as => (as.foldl Expr.access a).map fun x => x.1

theorem accLoop_step (E : Env) {a : Option (Expr × Bool)} {i r : List MacroToken} {x : Access}
    (h : parseAccess E (knot E) i = some (x, r)) (hl : r.length ≠ i.length) : accLoop E a i = accLoop E (Expr.access a x) r := by
  have hs := (eats_access E (eats_knot E)).shrinks
  unfold accLoop mapOpt
  rw [many0_eq hs, h]
  dsimp only
  rw [if_neg hl]
  cases many0 (parseAccess E (knot E)) r with
  | none => rfl
  | some y => simp only [List.foldl_cons]

theorem access_stop (E : Env) {i : List MacroToken} (h : Stop (stops 1) i) : parseAccess E (knot E) i = none := by
  have h1 := h.punct (show c!"(" ∈ stops 1 by decide)
  have h2 := h.punct (show c!"." ∈ stops 1 by decide)
  have h3 := h.punct (show c!"[" ∈ stops 1 by decide)
  have h4 := h.punct (show c!"->" ∈ stops 1 by decide)
  have h5 := h.punct (show c!"++" ∈ stops 1 by decide)
  have h6 := h.punct (show c!"--" ∈ stops 1 by decide)
  simp only [parseAccess, preceded, map, seq, meta_none h.noComment, Parser.or, parenthesized, delimited, terminated, value, h1, h2, h3, h4, h5, h6]

theorem accLoop_stop (E : Env) {e : Expr} {b : Bool} {i : List MacroToken} (h : Stop (stops 1) i) :
    accLoop E (some (e, b)) i = some (e, i) := by
  simp only [accLoop, mapOpt, many0, many0F, access_stop E h, List.foldl_nil, Option.map_some]

/-! ## Binary operators -/

/-- The operators of a level. -/
def opAt : Nat → TParser BinOp
  | 3 => op3 | 4 => op4 | 5 => op5 | 6 => op6 | 7 => op7 | 8 => op8 | 9 => op9 | 10 => op10
  | _ => fun _ => none

/-- The parser of a level. -/
def lv (E : Env) : Nat → TParser Expr
  | 0 | 1 => prec1 E (knot E)
  | 2 => prec2 E (knot E)
  | n + 1 => binLevel (lv E n) (opAt (n + 1))

theorem lv_ten (E : Env) : lv E 10 = prec10 E (knot E) := rfl

theorem opAt_mem {ℓ : Nat} {p : Str} {op : BinOp} (h : (ℓ, p, op) ∈ binaryOps) (r : List MacroToken) :
    opAt ℓ (.punct p :: r) = some (op, r) := by
  simp only [binaryOps, List.mem_cons, List.not_mem_nil, or_false, Prod.mk.injEq] at h
  rcases h with ⟨rfl, rfl, rfl⟩ | ⟨rfl, rfl, rfl⟩ | ⟨rfl, rfl, rfl⟩ | ⟨rfl, rfl, rfl⟩ | ⟨rfl, rfl, rfl⟩ | ⟨rfl, rfl, rfl⟩ |
    ⟨rfl, rfl, rfl⟩ | ⟨rfl, rfl, rfl⟩ | ⟨rfl, rfl, rfl⟩ | ⟨rfl, rfl, rfl⟩ | ⟨rfl, rfl, rfl⟩ | ⟨rfl, rfl, rfl⟩ | ⟨rfl, rfl, rfl⟩ |
    ⟨rfl, rfl, rfl⟩ | ⟨rfl, rfl, rfl⟩ | ⟨rfl, rfl, rfl⟩ <;> rfl

theorem opAt_stop {ℓ : Nat} {i : List MacroToken} (h : Stop (stops ℓ) i) : opAt ℓ i = none := by
  unfold opAt
  split
  all_goals first
    | rfl
    | simp only [op3, op4, op5, op6, op7, op8, op9, op10, Parser.or, value, map]
      repeat rw [h.punct (by decide)]

theorem eats_opAt (n : Nat) : Eats NotLogic (opAt n) := by
  unfold opAt
  split
  · unfold op3; eats
  · unfold op4; eats
  · unfold op5; eats
  · unfold op6; eats
  · unfold op7; eats
  · unfold op8; eats
  · unfold op9; eats
  · unfold op10; eats
  · exact .fail

theorem eats_lv (E : Env) : ∀ n, Eats NotLogic (lv E n)
  | 0 => eats_prec1 E (eats_knot E)
  | 1 => eats_prec1 E (eats_knot E)
  | 2 => eats_prec2 E (eats_knot E)
  | n + 3 => eats_binLevel (eats_lv E (n + 2)) (eats_opAt (n + 3))

/-- The rest of a binary level. -/
def binLoop (E : Env) (n : Nat) (e : Expr) : TParser Expr :=
  map (many0 (seq (delimited «meta» (opAt (n + 1)) «meta») (lv E n)))
    fun l => l.foldl (fun lhs (x : BinOp × Expr) => .bin lhs x.1 x.2) e

theorem lv_of {E : Env} {n : Nat} (hn : 2 ≤ n) {i r : List MacroToken} {e : Expr} (h : lv E n i = some (e, r)) :
    lv E (n + 1) i = binLoop E n e r := by
  obtain ⟨n, rfl⟩ : ∃ m, n = m + 2 := ⟨n - 2, by omega⟩
  show binLevel (lv E (n + 2)) (opAt (n + 3)) i = _
  simp only [binLevel, h, binLoop]

theorem delim_op {n : Nat} {p : Str} {op : BinOp} (h : (n, p, op) ∈ binaryOps) {i : List MacroToken} (hi : PlainStart i) :
    delimited «meta» (opAt n) «meta» (.punct p :: i) = some (op, i) := by
  simp only [delimited, terminated, preceded, map, seq, meta_none (noComment_punct _ _), opAt_mem h, meta_none hi]

theorem binLoop_step {E : Env} {n : Nat} {p : Str} {op : BinOp} (h : (n + 1, p, op) ∈ binaryOps) {i r : List MacroToken} (hi : PlainStart i)
    {a b : Expr} (hb : lv E n i = some (b, r)) : binLoop E n a (.punct p :: i) = binLoop E n (.bin a op b) r := by
  have ho := eats_opAt (n + 1)
  have hv := eats_lv E n
  have hs : Shrinks (seq (delimited «meta» (opAt (n + 1)) «meta») (lv E n)) := (by eats : Eats NotLogic _).shrinks
  have hl := hv.shrinks _ _ _ hb
  unfold binLoop map
  rw [many0_eq hs]
  have : seq (delimited «meta» (opAt (n + 1)) «meta») (lv E n) (.punct p :: i) = some ((op, b), r) := by
    simp only [seq, delim_op h hi, hb]
  rw [this]
  dsimp only
  rw [if_neg (by simp only [List.length_cons]; omega)]
  cases many0 (seq (delimited «meta» (opAt (n + 1)) «meta») (lv E n)) r with
  | none => rfl
  | some y => simp only [List.foldl_cons]

theorem binLoop_stop {E : Env} {n : Nat} {i : List MacroToken} (h : Stop (stops (n + 1)) i) (e : Expr) : binLoop E n e i = some (e, i) := by
  have : seq (delimited «meta» (opAt (n + 1)) «meta») (lv E n) i = none := by
    simp only [delimited, terminated, preceded, map, seq, meta_none h.noComment, opAt_stop h]
  simp only [binLoop, map, many0, many0F, this, List.foldl_nil]

/-! ## Arguments -/

theorem sepList0_cons {σ α β : Type} {sep : Parser σ β} {p : Parser σ α} (hs : Shrinks (preceded sep p)) {s : σ} {x : β} {u r : List σ} {a : α}
    {as : List α} (hp : Shrinks p) (hsep : sep (s :: u) = some (x, u)) (h : sepList0 sep p u = some (a :: as, r)) :
    many0 (preceded sep p) (s :: u) = some (a :: as, r) := by
  unfold sepList0 at h
  split at h
  · cases h
  · rename_i b r' hb
    have hl := hp _ _ _ hb
    rw [many0_eq hs]
    have : preceded sep p (s :: u) = some (b, r') := by simp only [preceded, map, seq, hsep, hb]
    rw [this]
    dsimp only
    rw [if_neg (by simp only [List.length_cons]; omega)]
    split at h
    · rename_i h2
      cases h
      rw [h2]
    · cases h

theorem expr_close (E : Env) (r : List MacroToken) : parseExpr E (.punct c!")" :: r) = none := rfl

/-! ## Not a cast and not a prefix operator -/

theorem parenTy_other (E : Env) {t : MacroToken} (h : t ≠ .punct c!"(") (r : List MacroToken) : parenthesized (parseTy E) (t :: r) = none := by
  have : punct c!"(" (t :: r) = none := by
    cases t <;> first | rfl | skip
    exact punct_ne (by rintro rfl; exact h rfl) r
  simp only [parenthesized, delimited, terminated, preceded, map, seq, this]

theorem prefixOp_none {i : List MacroToken} (h : ∀ p op r, (p, op) ∈ prefixOps → i ≠ .punct p :: r) : prefixOp i = none := by
  have hp : ∀ p op, (p, op) ∈ prefixOps → punct p i = none := by
    intro p op hm
    cases i with
    | nil => rfl
    | cons t i =>
      cases t <;> first | rfl | skip
      exact punct_ne (by rintro rfl; exact h _ _ _ hm rfl) i
  simp only [prefixOp, Parser.or, value, map, hp _ _ (show (c!"*", .deref) ∈ prefixOps by decide),
    hp _ _ (show (c!"&", .addrOf) ∈ prefixOps by decide), hp _ _ (show (c!"++", .inc) ∈ prefixOps by decide),
    hp _ _ (show (c!"--", .dec) ∈ prefixOps by decide), hp _ _ (show (c!"+", .plus) ∈ prefixOps by decide),
    hp _ _ (show (c!"-", .minus) ∈ prefixOps by decide), hp _ _ (show (c!"!", .not) ∈ prefixOps by decide),
    hp _ _ (show (c!"~", .comp) ∈ prefixOps by decide)]

theorem prefixOp_mem {p : Str} {op : UnOp} (h : (p, op) ∈ prefixOps) (r : List MacroToken) : prefixOp (.punct p :: r) = some (op, r) := by
  simp only [prefixOps, List.mem_cons, List.not_mem_nil, or_false, Prod.mk.injEq] at h
  rcases h with ⟨rfl, rfl⟩ | ⟨rfl, rfl⟩ | ⟨rfl, rfl⟩ | ⟨rfl, rfl⟩ | ⟨rfl, rfl⟩ | ⟨rfl, rfl⟩ | ⟨rfl, rfl⟩ | ⟨rfl, rfl⟩ <;> rfl

/-- Neither a cast nor a prefix operator comes first. -/
def Low (E : Env) (i : List MacroToken) : Prop := parenthesized (parseTy E) i = none ∧ prefixOp i = none

theorem low_other (E : Env) {t : MacroToken} (h : ∀ p, t ≠ .punct p) (r : List MacroToken) : Low E (t :: r) :=
  ⟨parenTy_other E (h _) r, prefixOp_none fun p _ r' _ h' => by cases h'; exact h _ rfl⟩

theorem Spec.Gram.low (E : Env) {ℓ : Nat} {ts : List MacroToken} {e : Expr} (h : Gram ℓ ts e) : ℓ ≤ 1 → ∀ rest, Low E (ts ++ rest) := by
  match h with
  | .name h => intro _ rest; exact low_other E (by cases h <;> simp) _
  | .lit => intro _ rest; exact low_other E (by simp) _
  | .paren h hb =>
    intro _ rest
    rw [List.cons_append, List.append_assoc, List.singleton_append]
    exact ⟨h.notType E hb rest, prefixOp_none fun p op r hm h' => by cases h'; simp [prefixOps] at hm⟩
  | .sizeOf _ => intro _ rest; exact low_other E (by simp) _
  | .call h _ => intro _ rest; exact low_other E (by cases h <;> simp) _
  | .index h _ => intro _ rest; rw [List.append_assoc]; exact h.low E (by omega) _
  | .member h _ => intro _ rest; rw [List.append_assoc]; exact h.low E (by omega) _
  | .arrow h _ => intro _ rest; rw [List.append_assoc]; exact h.low E (by omega) _
  | .postInc h => intro _ rest; rw [List.append_assoc]; exact h.low E (by omega) _
  | .postDec h => intro _ rest; rw [List.append_assoc]; exact h.low E (by omega) _
  | .pre _ _ => intro h; omega
  | .cast _ _ => intro h; omega
  | .bin (ℓ := ℓ) hp _ _ => intro h; obtain rfl : ℓ = 0 := by omega
                            simp [binaryOps] at hp
  | .cond _ _ _ => intro h; omega
  | .assign _ _ _ => intro h; omega
  | .up h _ => intro hl rest; exact h.low E (by omega) rest

/-! ## Assignment -/

theorem op14_mem {p : Str} {op : BinOp} (h : (p, op) ∈ assignOps) (r : List MacroToken) : op14 (.punct p :: r) = some (op, r) := by
  simp only [assignOps, List.mem_cons, List.not_mem_nil, or_false, Prod.mk.injEq] at h
  rcases h with ⟨rfl, rfl⟩ | ⟨rfl, rfl⟩ | ⟨rfl, rfl⟩ | ⟨rfl, rfl⟩ | ⟨rfl, rfl⟩ | ⟨rfl, rfl⟩ | ⟨rfl, rfl⟩ | ⟨rfl, rfl⟩ | ⟨rfl, rfl⟩ |
    ⟨rfl, rfl⟩ | ⟨rfl, rfl⟩ <;> rfl

theorem op14_stop {i : List MacroToken} (h : Stop (stops 12) i) : op14 i = none := by
  simp only [op14, Parser.or, value, map]
  repeat rw [h.punct (by decide)]

theorem assignLoop_stop {E : Env} {i : List MacroToken} (h : Stop (stops 12) i) :
    many0 (seq (delimited «meta» op14 «meta») (knot E).expr) i = some ([], i) := by
  have : seq (delimited «meta» op14 «meta») (knot E).expr i = none := by
    simp only [delimited, terminated, preceded, map, seq, meta_none h.noComment, op14_stop h]
  simp only [many0, many0F, this]

/-! ## All levels -/

/-- The parser of the level reads the tokens as the tree, up to what cannot continue it. -/
def Reads (E : Env) : Nat → List MacroToken → Expr → Prop
  | 0, ts, e => ∀ rest, Stop (stops 0) rest → prec1 E (knot E) (ts ++ rest) = accLoop E (some (e, false)) rest
  | 1, ts, e => ∀ rest, Stop (stops 1) rest → lv E 1 (ts ++ rest) = some (e, rest)
  | 2, ts, e => ∀ rest, Stop (stops 2) rest → lv E 2 (ts ++ rest) = some (e, rest)
  | 11, ts, e => ∀ rest, Stop (stops 11) rest → prec13 E (knot E) (ts ++ rest) = some (e, rest)
  | 12, ts, e => ∀ rest, Stop (stops 12) rest → parseExpr E (ts ++ rest) = some (e, rest)
  | n + 1, ts, e => ∀ rest, Stop (stops n) rest → lv E (n + 1) (ts ++ rest) = binLoop E n e rest

theorem Reads.full {E : Env} {n : Nat} {ts : List MacroToken} {e : Expr} (h : Reads E n ts e) (h0 : 2 ≤ n) (h1 : n ≤ 10)
    {rest : List MacroToken} (hr : Stop (stops n) rest) : lv E n (ts ++ rest) = some (e, rest) := by
  by_cases h2 : n = 2
  · subst h2; exact h rest hr
  · obtain ⟨m, rfl⟩ : ∃ m, n = m + 1 := ⟨n - 1, by omega⟩
    have h' : ∀ rest, Stop (stops m) rest → lv E (m + 1) (ts ++ rest) = binLoop E m e rest := by
      unfold Reads at h
      split at h <;> first | omega | skip
      rename_i heq
      cases heq
      exact h
    rw [h' rest (hr.mono (stops_mono m (by omega))), binLoop_stop hr]

theorem Reads.of_bin {E : Env} {n : Nat} {ts : List MacroToken} {e : Expr} (h0 : 2 ≤ n) (h1 : n < 10)
    (h : ∀ rest, Stop (stops n) rest → lv E (n + 1) (ts ++ rest) = binLoop E n e rest) : Reads E (n + 1) ts e := by
  unfold Reads
  split <;> first | omega | skip
  rename_i heq
  cases heq
  exact h

theorem Reads.bin {E : Env} {n : Nat} {ts : List MacroToken} {e : Expr} (h0 : 2 ≤ n) (h1 : n < 10) (h : Reads E (n + 1) ts e)
    {rest : List MacroToken} (hr : Stop (stops n) rest) : lv E (n + 1) (ts ++ rest) = binLoop E n e rest := by
  unfold Reads at h
  split at h <;> first | omega | skip
  rename_i heq
  cases heq
  exact h rest hr

theorem stop_punct {ps : List Str} {p : Str} (h : p ∉ ps) (r : List MacroToken) : Stop ps (.punct p :: r) := .inr ⟨p, r, rfl, h⟩

theorem binOp_level {n : Nat} {p : Str} {op : BinOp} (h : (n + 1, p, op) ∈ binaryOps) : 2 ≤ n ∧ n < 10 ∧ p ∉ stops n := by
  have : ∀ x ∈ binaryOps, 2 ≤ x.1 - 1 ∧ x.1 - 1 < 10 ∧ x.2.1 ∉ stops (x.1 - 1) := by decide +kernel
  have := this _ h
  simpa only [Nat.add_sub_cancel] using this

theorem assignOp_level {p : Str} {op : BinOp} (h : (p, op) ∈ assignOps) : p ∉ stops 11 := by
  have : ∀ x ∈ assignOps, x.1 ∉ stops 11 := by decide +kernel
  have := this _ h
  simpa only using this

theorem prec14_of {E : Env} {i r : List MacroToken} {e : Expr} (h : prec13 E (knot E) i = some (e, r)) (hr : Stop (stops 12) r) :
    parseExpr E i = some (e, r) := by
  have : parseExpr E i = prec14 E (knot E) i := parseExpr_knot E i
  rw [this]
  unfold prec14
  rw [h]
  dsimp only
  rw [map, assignLoop_stop hr]
  rfl

theorem prec13_of {E : Env} {i r : List MacroToken} {e : Expr} (h : lv E 10 i = some (e, r)) (hr : Stop (stops 11) r) :
    prec13 E (knot E) i = some (e, r) := by
  rw [lv_ten] at h
  have : delimited «meta» (punct c!"?") «meta» r = none := by
    simp only [delimited, terminated, preceded, map, seq, meta_none hr.noComment, hr.punct (show c!"?" ∈ stops 11 by decide)]
  unfold prec13
  rw [h]
  dsimp only
  rw [this]

theorem prec2_low {E : Env} {i : List MacroToken} (h : Low E i) : lv E 2 i = lv E 1 i := by
  show prec2 E (knot E) i = prec1 E (knot E) i
  simp only [prec2, Parser.or, map, seq, terminated, h.1, h.2]

theorem Reads.up {E : Env} {n : Nat} {ts : List MacroToken} {e : Expr} (h : Reads E n ts e) (hn : n < 12)
    (hl : n ≤ 1 → ∀ rest, Low E (ts ++ rest)) : Reads E (n + 1) ts e := by
  by_cases h0 : n = 0
  · subst h0
    intro rest hr
    show prec1 E (knot E) _ = _
    rw [h rest (hr.mono (stops_mono 0 (by decide))), accLoop_stop E hr]
  · by_cases h1 : n = 1
    · subst h1
      intro rest hr
      rw [prec2_low (hl (by omega) rest)]
      exact h rest (hr.mono (stops_mono 1 (by decide)))
    · by_cases h2 : n = 10
      · subst h2
        intro rest hr
        exact prec13_of (h.full (by decide) (by decide) (hr.mono (stops_mono 10 (by decide)))) hr
      · by_cases h3 : n = 11
        · subst h3
          intro rest hr
          exact prec14_of (h rest (hr.mono (stops_mono 11 (by decide)))) hr
        · exact .of_bin (by omega) (by omega) fun rest hr => lv_of (by omega) (h.full (by omega) (by omega) hr)

theorem access_call {E : Env} {i r : List MacroToken} {es : List Expr} (hi : PlainStart i)
    (h : sepList0 (delimited «meta» (punct c!",") «meta») (knot E).expr i = some (es, .punct c!")" :: r)) :
    parseAccess E (knot E) (.punct c!"(" :: i) = some (.fn es, r) := by
  simp only [parseAccess, preceded, map, seq, meta_none (noComment_punct _ _), Parser.or, paren_of hi h]

theorem factor_sizeOf (E : Env) (R : Rec) {ts : List MacroToken} {t : Ty} (h : TypeName ts t) (rest : List MacroToken) :
    parseFactor E R (.ident c!"sizeof" :: .punct c!"(" :: (ts ++ .punct c!")" :: rest)) = some (.sizeOf t, rest) := by
  simp only [parseFactor, Parser.or, map, preceded, seq, keyword_self, typeName_paren E h]

theorem prec1_of {E : Env} {i r : List MacroToken} {e : Expr} (h : parseFactor E (knot E) i = some (e, r)) :
    prec1 E (knot E) i = accLoop E (some (e, false)) r := by
  simp only [prec1, h, accLoop]

theorem access_index {E : Env} {us rest : List MacroToken} {i : Expr} (hc : PlainStart (us ++ .punct c!"]" :: rest))
    (hx : parseExpr E (us ++ .punct c!"]" :: rest) = some (i, .punct c!"]" :: rest)) :
    parseAccess E (knot E) (.punct c!"[" :: (us ++ .punct c!"]" :: rest)) = some (.array i, rest) := by
  simp only [parseAccess, preceded, map, seq, meta_none (noComment_punct _ _), Parser.or, parenthesized, delimited, terminated,
    punct_ne (show c!"(" ≠ c!"[" by decide), punct_ne (show c!"." ≠ c!"[" by decide), punct_self, meta_none hc,
    show (knot E).expr = parseExpr E from knot_is E, hx]

theorem access_member {E : Env} {t : MacroToken} {n : IdentExpr} (hn : Name t n) {rest : List MacroToken} (hr : Stop (stops 0) rest) :
    parseAccess E (knot E) (.punct c!"." :: t :: rest) = some (.field n false, rest) := by
  have hm : «meta» (t :: rest) = some ([], t :: rest) := meta_none ((Start.of hn.tyStop []).noComment rest)
  simp only [parseAccess, preceded, map, seq, meta_none (noComment_punct _ _), Parser.or, parenthesized, delimited, terminated,
    punct_ne (show c!"(" ≠ c!"." by decide), punct_self, hm, concatIdent_name E hn hr]

theorem access_arrow {E : Env} {t : MacroToken} {n : IdentExpr} (hn : Name t n) {rest : List MacroToken} (hr : Stop (stops 0) rest) :
    parseAccess E (knot E) (.punct c!"->" :: t :: rest) = some (.field n true, rest) := by
  have hm : «meta» (t :: rest) = some ([], t :: rest) := meta_none ((Start.of hn.tyStop []).noComment rest)
  simp only [parseAccess, preceded, map, seq, meta_none (noComment_punct _ _), Parser.or, parenthesized, delimited, terminated,
    punct_ne (show c!"(" ≠ c!"->" by decide), punct_ne (show c!"." ≠ c!"->" by decide), punct_ne (show c!"[" ≠ c!"->" by decide),
    punct_self, hm, concatIdent_name E hn hr]

theorem access_inc {E : Env} {rest : List MacroToken} : parseAccess E (knot E) (.punct c!"++" :: rest) = some (.post .postInc, rest) := by
  simp only [parseAccess, preceded, map, seq, meta_none (noComment_punct _ _), Parser.or, parenthesized, delimited, terminated,
    punct_ne (show c!"(" ≠ c!"++" by decide), punct_ne (show c!"." ≠ c!"++" by decide), punct_ne (show c!"[" ≠ c!"++" by decide),
    punct_ne (show c!"->" ≠ c!"++" by decide), punct_self, value]

theorem access_dec {E : Env} {rest : List MacroToken} : parseAccess E (knot E) (.punct c!"--" :: rest) = some (.post .postDec, rest) := by
  simp only [parseAccess, preceded, map, seq, meta_none (noComment_punct _ _), Parser.or, parenthesized, delimited, terminated,
    punct_ne (show c!"(" ≠ c!"--" by decide), punct_ne (show c!"." ≠ c!"--" by decide), punct_ne (show c!"[" ≠ c!"--" by decide),
    punct_ne (show c!"->" ≠ c!"--" by decide), punct_ne (show c!"++" ≠ c!"--" by decide), punct_self, value]

theorem prec2_pre {E : Env} {p : Str} {op : UnOp} (hp : (p, op) ∈ prefixOps) {i r : List MacroToken} {e : Expr} (hi : PlainStart i)
    (h : lv E 2 i = some (e, r)) : lv E 2 (.punct p :: i) = some (.un op e, r) := by
  have hk : (knot E).prec2 i = some (e, r) := (knot_prec2 E i).trans h
  have hc : parenthesized (parseTy E) (.punct p :: i) = none :=
    parenTy_other E (by rintro ⟨⟩; simp [prefixOps] at hp) i
  show prec2 E (knot E) _ = _
  simp only [prec2, Parser.or, map, seq, hc, terminated, prefixOp_mem hp, meta_none hi, hk]

theorem prec2_cast {E : Env} {us : List MacroToken} {t : Ty} (ht : TypeName us t) {i r : List MacroToken} {e : Expr}
    (h : lv E 2 i = some (e, r)) : lv E 2 (.punct c!"(" :: (us ++ .punct c!")" :: i)) = some (.cast t e, r) := by
  have hk : (knot E).prec2 i = some (e, r) := (knot_prec2 E i).trans h
  show prec2 E (knot E) _ = _
  simp only [prec2, Parser.or, map, seq, typeName_paren E ht, hk]

theorem prec13_cond {E : Env} {i j k r : List MacroToken} {c a b : Expr} (h : lv E 10 i = some (c, .punct c!"?" :: j)) (hj : PlainStart j)
    (h' : parseExpr E j = some (a, .punct c!":" :: k)) (hk : PlainStart k) (h'' : prec13 E (knot E) k = some (b, r)) :
    prec13 E (knot E) i = some (.ternary c a b, r) := by
  rw [lv_ten] at h
  have h3 : (knot E).prec13 k = some (b, r) := (knot_prec13 E k).trans h''
  have h4 : (knot E).expr j = some (a, .punct c!":" :: k) := by rw [knot_is]; exact h'
  have h5 : map (seq (knot E).expr (preceded (delimited «meta» (punct c!":") «meta») (knot E).prec13))
      (fun (t, f) => Expr.ternary c t f) j = some (.ternary c a b, r) := by
    simp only [map, seq, h4, preceded, delim_punct hk, h3]
  unfold prec13
  rw [h]
  dsimp only
  rw [delim_punct hj]
  exact h5

theorem prec14_assign {E : Env} {i j r : List MacroToken} {p : Str} {op : BinOp} {a b : Expr} (hp : (p, op) ∈ assignOps)
    (h : prec13 E (knot E) i = some (a, .punct p :: j)) (hj : PlainStart j) (h' : parseExpr E j = some (b, r)) (hr : Stop (stops 12) r) :
    parseExpr E i = some (.bin a op b, r) := by
  have he : parseExpr E i = prec14 E (knot E) i := parseExpr_knot E i
  have hk : (knot E).expr j = some (b, r) := by rw [knot_is]; exact h'
  have hl := (eats_expr E).shrinks _ _ _ h'
  have hs : Shrinks (seq (delimited «meta» op14 «meta») (knot E).expr) := .seq strict_op14.shrinks (eats_expr E).shrinks
  have h1 : seq (delimited «meta» op14 «meta») (knot E).expr (.punct p :: j) = some ((op, b), r) := by
    simp only [delimited, terminated, preceded, map, seq, meta_none (noComment_punct _ _), op14_mem hp, meta_none hj, hk]
  rw [he]
  unfold prec14
  rw [h]
  dsimp only
  rw [map, many0_eq hs, h1]
  dsimp only
  rw [if_neg (by simp only [List.length_cons]; omega), assignLoop_stop hr]
  rfl

mutual

theorem Spec.Gram.reads (E : Env) {ℓ : Nat} {ts : List MacroToken} {e : Expr} : Gram ℓ ts e → Reads E ℓ ts e
  | .name h => fun rest hr => prec1_of (factor_name E _ h hr)
  | .lit => fun rest hr => prec1_of (factor_lit E _ _ hr)
  | .paren h hb => fun rest hr => by
    rw [List.cons_append, List.append_assoc, List.singleton_append]
    exact prec1_of (factor_paren E _ (h.start.noComment _) (h.reads E _ (stop_punct (by decide) _)))
  | .sizeOf h => fun rest hr => by
    rw [List.cons_append, List.cons_append, List.append_assoc, List.singleton_append]
    exact prec1_of (factor_sizeOf E _ h _)
  | .call h ha => fun rest hr => by
    rw [List.cons_append, List.cons_append, List.append_assoc, List.singleton_append]
    rw [prec1_of (factor_name E _ h (stop_punct (by decide) _))]
    obtain ⟨hc, hs⟩ := ha.reads E rest
    rw [accLoop_step E (access_call hc hs) (by simp; omega)]
    rfl
  | .index h hi => fun rest hr => by
    rw [List.append_assoc, List.cons_append, List.append_assoc, List.singleton_append, h.reads E _ (stop_punct (by decide) _),
      accLoop_step E (access_index (hi.start.noComment _) (hi.reads E _ (stop_punct (by decide) _))) (by simp; omega)]
    rfl
  | .member h hn => fun rest hr => by
    rw [List.append_assoc, List.cons_append, List.singleton_append, h.reads E _ (stop_punct (by decide) _),
      accLoop_step E (access_member hn hr) (by simp only [List.length_cons]; omega)]
    rfl
  | .arrow h hn => fun rest hr => by
    rw [List.append_assoc, List.cons_append, List.singleton_append, h.reads E _ (stop_punct (by decide) _),
      accLoop_step E (access_arrow hn hr) (by simp only [List.length_cons]; omega)]
    rfl
  | .postInc h => fun rest hr => by
    rw [List.append_assoc, List.singleton_append]
    show prec1 E (knot E) _ = _
    rw [h.reads E _ (stop_punct (by decide) _), accLoop_step E access_inc (by simp)]
    exact accLoop_stop E hr
  | .postDec h => fun rest hr => by
    rw [List.append_assoc, List.singleton_append]
    show prec1 E (knot E) _ = _
    rw [h.reads E _ (stop_punct (by decide) _), accLoop_step E access_dec (by simp)]
    exact accLoop_stop E hr
  | .pre hp h => fun rest hr => prec2_pre hp (h.start.noComment _) (h.reads E rest hr)
  | .cast ht h => fun rest hr => by
    rw [List.cons_append, List.append_assoc, List.cons_append]
    exact prec2_cast ht (h.reads E rest hr)
  | .bin hp h h' => .of_bin (binOp_level hp).1 (binOp_level hp).2.1 fun rest hr => by
    have hl := binOp_level hp
    rw [List.append_assoc, List.cons_append, (h.reads E).bin hl.1 hl.2.1 (stop_punct hl.2.2 _),
      binLoop_step hp (h'.start.noComment _) ((h'.reads E).full hl.1 (by omega) hr)]
  | .cond h h' h'' => fun rest hr => by
    rw [List.append_assoc, List.cons_append, List.append_assoc, List.cons_append]
    exact prec13_cond ((h.reads E).full (by decide) (by decide) (stop_punct (by decide) _)) (h'.start.noComment _)
      (h'.reads E _ (stop_punct (by decide) _)) (h''.start.noComment _) (h''.reads E rest hr)
  | .assign hp h h' => fun rest hr => by
    rw [List.append_assoc, List.cons_append]
    have := (((((((((h.reads E).up (by decide) (by simp)).up (by decide) (by simp)).up (by decide) (by simp)).up (by decide) (by simp)).up
      (by decide) (by simp)).up (by decide) (by simp)).up (by decide) (by simp)).up (by decide) (by simp)).up (by decide) (by simp)
    exact prec14_assign hp (this _ (stop_punct (assignOp_level hp) _)) (h'.start.noComment _) (h'.reads E rest hr) hr
  | .up h hl => (h.reads E).up hl (h.low E)

theorem Spec.Args.reads (E : Env) {ts : List MacroToken} {es : List Expr} : Args ts es → ∀ (rest : List MacroToken),
    PlainStart (ts ++ .punct c!")" :: rest) ∧
    sepList0 (delimited «meta» (punct c!",") «meta») (knot E).expr (ts ++ .punct c!")" :: rest) = some (es, .punct c!")" :: rest)
  | .none => fun rest => ⟨noComment_punct _ _, by
      have : (knot E).expr (.punct c!")" :: rest) = none := expr_close E rest
      simp only [List.nil_append, sepList0, this]⟩
  | .one h => fun rest => ⟨h.start.noComment _, by
      have h1 := h.reads E (.punct c!")" :: rest) (stop_punct (by decide) _)
      have h2 : preceded (delimited «meta» (punct c!",") «meta») (knot E).expr (.punct c!")" :: rest) = none := by
        simp only [preceded, delimited, terminated, map, seq, meta_none (noComment_punct _ _), punct_ne (show c!"," ≠ c!")" by decide)]
      rw [knot_is] at h2 ⊢
      simp only [sepList0, h1, many0, many0F, h2]⟩
  | .more (us := us) h h' => fun rest => ⟨by rw [List.append_assoc]; exact h.start.noComment _, by
      rw [List.append_assoc, List.cons_append]
      obtain ⟨hc, hs⟩ := h'.reads E rest
      have h1 := h.reads E _ (stop_punct (p := c!",") (by decide) (us ++ .punct c!")" :: rest))
      have hsh := (eats_expr E).shrinks
      have h2 := sepList0_cons (.preceded (strict_mid c!",").shrinks hsh) hsh (delim_punct hc) hs
      rw [sepList0, knot_is, h1]
      dsimp only
      rw [h2]⟩

end

end CMacro
