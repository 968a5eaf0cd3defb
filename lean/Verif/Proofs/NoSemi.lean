import Verif.Proofs.Eats

/-!
# Expressions contain no `;` and no `{`
-/

namespace CMacro
open Parser

/-- Not a token that only statements contain. -/
def NotStmt (t : MacroToken) : Prop := t ≠ .punct c!";" ∧ t ≠ .punct c!"{"

theorem passes_punct {p : Str} (h : NotStmt (.punct p)) : Eats NotStmt (punct p) :=
  .one fun t a ht => by
    split at ht
    · split at ht
      · rename_i hq; subst hq; exact h
      · cases ht
    · cases ht

theorem passes_keyword (k : Str) : Eats NotStmt (keyword k) :=
  .one fun t a ht => by
    split at ht
    · exact ⟨by simp, by simp⟩
    · cases ht

theorem passes_macroArg : Eats NotStmt macroArg := .one fun t a ht => by split at ht <;> first | (cases ht; done) | exact ⟨by simp, by simp⟩
theorem passes_macroId : Eats NotStmt macroId := .one fun t a ht => by split at ht <;> first | (cases ht; done) | exact ⟨by simp, by simp⟩
theorem passes_comment : Eats NotStmt comment := .one fun t a ht => by split at ht <;> first | (cases ht; done) | exact ⟨by simp, by simp⟩
theorem passes_meta : Eats NotStmt «meta» := passes_comment.many0
theorem passes_ordinary : Eats NotStmt ordinaryTok := .one fun t a ht => by split at ht <;> first | (cases ht; done) | exact ⟨by simp, by simp⟩

/-- Closes goals `Eats NotStmt p` by the shape of `p`. -/
syntax "passes" : tactic
macro_rules | `(tactic| passes) => `(tactic| repeat (first
  | assumption
  | exact passes_meta | exact passes_macroArg | exact passes_macroId | exact passes_keyword _ | exact passes_ordinary
  | exact passes_punct ⟨by decide, by decide⟩
  | exact Eats.eof
  | (refine Eats.one ?_; intro t a ht; (repeat' split at ht) <;> first | (cases ht; done) | exact ⟨by simp, by simp⟩)
  | apply Eats.preceded | apply Eats.terminated | apply Eats.delimited | apply Eats.value
  | apply Eats.map | apply Eats.mapOpt | apply Eats.or | apply Eats.seq | apply Eats.opt | apply Eats.many0
  | apply Eats.sepList0 | apply Eats.permutation2 | apply Eats.permutation3 | apply Eats.permutation4
  | apply Eats.permutation5 | apply Eats.allConsuming))

theorem passes_paren {α : Type} {p : TParser α} (h : Eats NotStmt p) : Eats NotStmt (parenthesized p) := by
  unfold parenthesized; passes

theorem passes_contPart (E : Env) : Eats NotStmt (contPart E) := by unfold contPart; passes

theorem passes_concatIdent (E : Env) : Eats NotStmt (parseConcatIdent E) := by
  have := passes_contPart E
  intro i a r h
  unfold parseConcatIdent at h
  split at h
  · cases h
  · rename_i h1
    exact Eats.chain (p := Parser.or (map macroArg IdentExpr.arg) (map macroId IdentExpr.plain)) (by passes) (by passes) h1 h

theorem passes_litChar : Eats NotStmt parseLitChar := by unfold parseLitChar charPrefixTok; passes

theorem passes_strTail {pre : Str} {f : MacroToken → Option Str} (h : ∀ t a, f t = some a → NotStmt t) : Eats NotStmt (strTail pre f) := by
  have := Eats.one h
  unfold strTail; passes

theorem passes_cons {α : Type} {t : MacroToken} (ht : NotStmt t) {p : TParser α} (hp : Eats NotStmt p) {i r : List MacroToken} {a : α}
    (h : p i = some (a, r)) : ∃ c, t :: i = c ++ r ∧ ∀ t ∈ c, NotStmt t := by
  obtain ⟨c, rfl, hc⟩ := hp _ _ _ h
  refine ⟨t :: c, rfl, fun x hx => ?_⟩
  rcases List.mem_cons.1 hx with rfl | hx
  · exact ht
  · exact hc x hx

theorem passes_litString : Eats NotStmt parseLitString := by
  intro i a r h
  unfold parseLitString at h
  split at h
  · exact passes_cons ⟨by simp, by simp⟩ (by passes) h
  · refine passes_cons ⟨by simp, by simp⟩ (.map (.many0 (passes_strTail ?_)) _) h
    intro t a ht; split at ht <;> first | (cases ht; done) | exact ⟨by simp, by simp⟩
  · refine passes_cons ⟨by simp, by simp⟩ (.map (.many0 (passes_strTail ?_)) _) h
    intro t a ht; split at ht <;> first | (cases ht; done) | exact ⟨by simp, by simp⟩
  · refine passes_cons ⟨by simp, by simp⟩ (.map (.many0 (passes_strTail ?_)) _) h
    intro t a ht; split at ht <;> first | (cases ht; done) | exact ⟨by simp, by simp⟩
  · exact passes_cons ⟨by simp, by simp⟩ (by passes) h
  · cases h

theorem passes_lit : Eats NotStmt parseLit := by
  have := passes_litChar
  have := passes_litString
  unfold parseLit parseLitFloat parseLitInt; passes

theorem passes_constVolatile : Eats NotStmt constVolatile := by unfold constVolatile; passes

theorem passes_intTy : Eats NotStmt intTy := by
  have := passes_constVolatile
  unfold intTy intTyLongLong intTyLength intTyPlain qualPart optPart intSignedness intLength kwPart
  passes

theorem passes_tyBase (E : Env) : Eats NotStmt (tyBase E) := by
  have := passes_constVolatile
  have := passes_intTy
  have := passes_concatIdent E
  unfold tyBase simpleTy doubleTy identTy
  passes

theorem passes_ty (E : Env) : Eats NotStmt (parseTy E) := by
  have := passes_constVolatile
  have := passes_tyBase E
  intro i a r h
  unfold parseTy at h
  split at h
  · cases h
  · rename_i h1
    exact Eats.chain (p := seq (tyBase E) (opt constVolatile)) (by passes) (by passes) h1 h

/-- The recursive parsers do not consume these tokens. -/
structure SkipsRec (R : Rec) : Prop where
  prec2 : Eats NotStmt R.prec2
  prec13 : Eats NotStmt R.prec13
  expr : Eats NotStmt R.expr

theorem passes_concatString (E : Env) : Eats NotStmt (parseConcatString E) := by
  have := passes_litString
  have := passes_concatIdent E
  have hp : Eats NotStmt (concatPart E) := by unfold concatPart parseStringify; passes
  intro i a r hi
  unfold parseConcatString at hi
  split at hi
  · cases hi
  · rename_i h1
    exact Eats.chain (p := concatPart E) hp (by passes) h1 hi

theorem passes_factor (E : Env) {R : Rec} (h : SkipsRec R) : Eats NotStmt (parseFactor E R) := by
  have := passes_paren (passes_ty E)
  have := passes_litChar
  have := passes_concatString E
  have := passes_lit
  have := passes_paren h.expr
  unfold parseFactor; passes

theorem passes_access (E : Env) {R : Rec} (h : SkipsRec R) : Eats NotStmt (parseAccess E R) := by
  have := passes_concatIdent E
  have := h.expr
  have : Eats NotStmt (parenthesized (sepList0 (delimited «meta» (punct c!",") «meta») R.expr)) := passes_paren (by passes)
  unfold parseAccess; passes

theorem passes_prec1 (E : Env) {R : Rec} (h : SkipsRec R) : Eats NotStmt (prec1 E R) := by
  have := passes_access E h
  intro i a r hi
  unfold prec1 at hi
  split at hi
  · cases hi
  · rename_i h1
    exact Eats.chain (p := parseFactor E R) (passes_factor E h) (by passes) h1 hi

theorem passes_prec2 (E : Env) {R : Rec} (h : SkipsRec R) : Eats NotStmt (prec2 E R) := by
  have := passes_paren (passes_ty E)
  have := passes_prec1 E h
  have := h.prec2
  unfold prec2 prefixOp; passes

theorem passes_binLevel {sub : TParser Expr} {op : TParser BinOp} (h : Eats NotStmt sub) (h' : Eats NotStmt op) :
    Eats NotStmt (binLevel sub op) := by
  intro i a r hi
  unfold binLevel at hi
  split at hi
  · cases hi
  · rename_i h1
    exact Eats.chain (p := sub) h (by passes) h1 hi

theorem passes_prec10 (E : Env) {R : Rec} (h : SkipsRec R) : Eats NotStmt (prec10 E R) := by
  unfold prec10 prec9 prec8 prec7 prec6 prec5 prec4 prec3
  refine passes_binLevel (passes_binLevel (passes_binLevel (passes_binLevel (passes_binLevel (passes_binLevel (passes_binLevel (passes_binLevel
    (passes_prec2 E h) ?_) ?_) ?_) ?_) ?_) ?_) ?_) ?_
  · unfold op3; passes
  · unfold op4; passes
  · unfold op5; passes
  · unfold op6; passes
  · unfold op7; passes
  · unfold op8; passes
  · unfold op9; passes
  · unfold op10; passes

theorem passes_prec13 (E : Env) {R : Rec} (h : SkipsRec R) : Eats NotStmt (prec13 E R) := by
  have h1 := h.expr
  have h2 := h.prec13
  intro i a r hi
  unfold prec13 at hi
  split at hi
  · cases hi
  · rename_i c r1 hc
    obtain ⟨x, rfl, hx⟩ := passes_prec10 E h _ _ _ hc
    split at hi
    · cases hi; exact ⟨x, rfl, hx⟩
    · rename_i r2 hd
      have hd' : Eats NotStmt (delimited «meta» (punct c!"?") «meta») := by passes
      obtain ⟨y, rfl, hy⟩ := hd' _ _ _ hd
      have hm : Eats NotStmt (map (seq R.expr (preceded (delimited «meta» (punct c!":") «meta») R.prec13))
        (fun (x : Expr × Expr) => Expr.ternary c x.1 x.2)) := by passes
      obtain ⟨z, rfl, hz⟩ := hm _ _ _ hi
      refine ⟨x ++ (y ++ z), by simp, fun t ht => ?_⟩
      rcases List.mem_append.1 ht with h | ht
      · exact hx t h
      · rcases List.mem_append.1 ht with h | h
        · exact hy t h
        · exact hz t h

theorem passes_prec14 (E : Env) {R : Rec} (h : SkipsRec R) : Eats NotStmt (prec14 E R) := by
  have := h.expr
  intro i a r hi
  unfold prec14 at hi
  split at hi
  · cases hi
  · rename_i h1
    exact Eats.chain (p := prec13 E R) (passes_prec13 E h) (by unfold op14; passes) h1 hi

theorem passes_tie (E : Env) : ∀ n, SkipsRec (tie E n)
  | 0 => ⟨.fail, .fail, .fail⟩
  | n + 1 => ⟨passes_prec2 E (passes_tie E n), passes_prec13 E (passes_tie E n), passes_prec14 E (passes_tie E n)⟩

theorem passes_expr (E : Env) : Eats NotStmt (parseExpr E) := fun i => (passes_tie E _).expr i


end CMacro
