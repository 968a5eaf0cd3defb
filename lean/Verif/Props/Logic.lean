import Verif.Proofs.Eats
import Verif.Proofs.Terminate

/-!
# Property C36: the operators `&&` and `||`
-/

namespace CMacro
open Parser

/-- **C36**: `a && b` and `a || b` are understood. -/
def C36_statement : Prop := ∀ (E : Env), E.Lawful → ∀ (a b : Str), isIdentifier E a = true → isIdentifier E b = true →
  MacroBody.parse E [.ident a, .punct c!"&&", .ident b] = some (.expr (.bin (.var (.plain a)) .and (.var (.plain b))), []) ∧
  MacroBody.parse E [.ident a, .punct c!"||", .ident b] = some (.expr (.bin (.var (.plain a)) .or (.var (.plain b))), [])

/-- Not one of the two operators. -/
def NotLogic (t : MacroToken) : Prop := t ≠ .punct c!"&&" ∧ t ≠ .punct c!"||"

theorem eats_punct {p : Str} (h : NotLogic (.punct p)) : Eats NotLogic (punct p) :=
  .one fun t a ht => by
    split at ht
    · split at ht
      · rename_i hq; subst hq; exact h
      · cases ht
    · cases ht

theorem eats_keyword (k : Str) : Eats NotLogic (keyword k) :=
  .one fun t a ht => by
    split at ht
    · exact ⟨by simp, by simp⟩
    · cases ht

theorem eats_macroArg : Eats NotLogic macroArg := .one fun t a ht => by split at ht <;> first | (cases ht; done) | exact ⟨by simp, by simp⟩
theorem eats_macroId : Eats NotLogic macroId := .one fun t a ht => by split at ht <;> first | (cases ht; done) | exact ⟨by simp, by simp⟩
theorem eats_comment : Eats NotLogic comment := .one fun t a ht => by split at ht <;> first | (cases ht; done) | exact ⟨by simp, by simp⟩
theorem eats_meta : Eats NotLogic «meta» := eats_comment.many0
theorem eats_ordinary : Eats NotLogic ordinaryTok := .one fun t a ht => by split at ht <;> first | (cases ht; done) | exact ⟨by simp, by simp⟩

/-- Closes goals `Eats NotLogic p` by the shape of `p`. -/
syntax "eats" : tactic
macro_rules | `(tactic| eats) => `(tactic| repeat (first
  | assumption
  | exact eats_meta | exact eats_macroArg | exact eats_macroId | exact eats_keyword _ | exact eats_ordinary
  | exact eats_punct ⟨by decide, by decide⟩
  | exact Eats.eof
  | (refine Eats.one ?_; intro t a ht; (repeat' split at ht) <;> first | (cases ht; done) | exact ⟨by simp, by simp⟩)
  | apply Eats.preceded | apply Eats.terminated | apply Eats.delimited | apply Eats.value
  | apply Eats.map | apply Eats.mapOpt | apply Eats.or | apply Eats.seq | apply Eats.opt | apply Eats.many0
  | apply Eats.sepList0 | apply Eats.permutation2 | apply Eats.permutation3 | apply Eats.permutation4
  | apply Eats.permutation5 | apply Eats.allConsuming))

theorem eats_paren {α : Type} {p : TParser α} (h : Eats NotLogic p) : Eats NotLogic (parenthesized p) := by
  unfold parenthesized; eats

theorem eats_contPart (E : Env) : Eats NotLogic (contPart E) := by unfold contPart; eats

theorem eats_concatIdent (E : Env) : Eats NotLogic (parseConcatIdent E) := by
  have := eats_contPart E
  intro i a r h
  unfold parseConcatIdent at h
  split at h
  · cases h
  · rename_i h1
    exact Eats.chain (p := Parser.or (map macroArg IdentExpr.arg) (map macroId IdentExpr.plain)) (by eats) (by eats) h1 h

theorem eats_litChar : Eats NotLogic parseLitChar := by unfold parseLitChar charPrefixTok; eats

theorem eats_strTail {pre : Str} {f : MacroToken → Option Str} (h : ∀ t a, f t = some a → NotLogic t) : Eats NotLogic (strTail pre f) := by
  have := Eats.one h
  unfold strTail; eats

theorem eats_cons {α : Type} {t : MacroToken} (ht : NotLogic t) {p : TParser α} (hp : Eats NotLogic p) {i r : List MacroToken} {a : α}
    (h : p i = some (a, r)) : ∃ c, t :: i = c ++ r ∧ ∀ t ∈ c, NotLogic t := by
  obtain ⟨c, rfl, hc⟩ := hp _ _ _ h
  refine ⟨t :: c, rfl, fun x hx => ?_⟩
  rcases List.mem_cons.1 hx with rfl | hx
  · exact ht
  · exact hc x hx

theorem eats_litString : Eats NotLogic parseLitString := by
  intro i a r h
  unfold parseLitString at h
  split at h
  · exact eats_cons ⟨by simp, by simp⟩ (by eats) h
  · refine eats_cons ⟨by simp, by simp⟩ (.map (.many0 (eats_strTail ?_)) _) h
    intro t a ht; split at ht <;> first | (cases ht; done) | exact ⟨by simp, by simp⟩
  · refine eats_cons ⟨by simp, by simp⟩ (.map (.many0 (eats_strTail ?_)) _) h
    intro t a ht; split at ht <;> first | (cases ht; done) | exact ⟨by simp, by simp⟩
  · refine eats_cons ⟨by simp, by simp⟩ (.map (.many0 (eats_strTail ?_)) _) h
    intro t a ht; split at ht <;> first | (cases ht; done) | exact ⟨by simp, by simp⟩
  · exact eats_cons ⟨by simp, by simp⟩ (by eats) h
  · cases h

theorem eats_lit : Eats NotLogic parseLit := by
  have := eats_litChar
  have := eats_litString
  unfold parseLit parseLitFloat parseLitInt; eats

theorem eats_constVolatile : Eats NotLogic constVolatile := by unfold constVolatile; eats

theorem eats_intTy : Eats NotLogic intTy := by
  have := eats_constVolatile
  unfold intTy intTyLongLong intTyLength intTyPlain qualPart optPart intSignedness intLength kwPart
  eats

theorem eats_tyBase (E : Env) : Eats NotLogic (tyBase E) := by
  have := eats_constVolatile
  have := eats_intTy
  have := eats_concatIdent E
  unfold tyBase simpleTy doubleTy identTy
  eats

theorem eats_ty (E : Env) : Eats NotLogic (parseTy E) := by
  have := eats_constVolatile
  have := eats_tyBase E
  intro i a r h
  unfold parseTy at h
  split at h
  · cases h
  · rename_i h1
    exact Eats.chain (p := seq (tyBase E) (opt constVolatile)) (by eats) (by eats) h1 h

/-- The recursive parsers do not consume the operators. -/
structure EatsRec (R : Rec) : Prop where
  prec2 : Eats NotLogic R.prec2
  prec13 : Eats NotLogic R.prec13
  expr : Eats NotLogic R.expr

theorem eats_concatString (E : Env) : Eats NotLogic (parseConcatString E) := by
  have := eats_litString
  have := eats_concatIdent E
  have hp : Eats NotLogic (concatPart E) := by unfold concatPart parseStringify; eats
  intro i a r hi
  unfold parseConcatString at hi
  split at hi
  · cases hi
  · rename_i h1
    exact Eats.chain (p := concatPart E) hp (by eats) h1 hi

theorem eats_factor (E : Env) {R : Rec} (h : EatsRec R) : Eats NotLogic (parseFactor E R) := by
  have := eats_paren (eats_ty E)
  have := eats_litChar
  have := eats_concatString E
  have := eats_lit
  have := eats_paren h.expr
  unfold parseFactor; eats

theorem eats_access (E : Env) {R : Rec} (h : EatsRec R) : Eats NotLogic (parseAccess E R) := by
  have := eats_concatIdent E
  have := h.expr
  have : Eats NotLogic (parenthesized (sepList0 (delimited «meta» (punct c!",") «meta») R.expr)) := eats_paren (by eats)
  unfold parseAccess; eats

theorem eats_prec1 (E : Env) {R : Rec} (h : EatsRec R) : Eats NotLogic (prec1 E R) := by
  have := eats_access E h
  intro i a r hi
  unfold prec1 at hi
  split at hi
  · cases hi
  · rename_i h1
    exact Eats.chain (p := parseFactor E R) (eats_factor E h) (by eats) h1 hi

theorem eats_prec2 (E : Env) {R : Rec} (h : EatsRec R) : Eats NotLogic (prec2 E R) := by
  have := eats_paren (eats_ty E)
  have := eats_prec1 E h
  have := h.prec2
  unfold prec2 prefixOp; eats

theorem eats_binLevel {sub : TParser Expr} {op : TParser BinOp} (h : Eats NotLogic sub) (h' : Eats NotLogic op) :
    Eats NotLogic (binLevel sub op) := by
  intro i a r hi
  unfold binLevel at hi
  split at hi
  · cases hi
  · rename_i h1
    exact Eats.chain (p := sub) h (by eats) h1 hi

theorem eats_prec10 (E : Env) {R : Rec} (h : EatsRec R) : Eats NotLogic (prec10 E R) := by
  unfold prec10 prec9 prec8 prec7 prec6 prec5 prec4 prec3
  refine eats_binLevel (eats_binLevel (eats_binLevel (eats_binLevel (eats_binLevel (eats_binLevel (eats_binLevel (eats_binLevel
    (eats_prec2 E h) ?_) ?_) ?_) ?_) ?_) ?_) ?_) ?_
  · unfold op3; eats
  · unfold op4; eats
  · unfold op5; eats
  · unfold op6; eats
  · unfold op7; eats
  · unfold op8; eats
  · unfold op9; eats
  · unfold op10; eats

theorem eats_prec13 (E : Env) {R : Rec} (h : EatsRec R) : Eats NotLogic (prec13 E R) := by
  have h1 := h.expr
  have h2 := h.prec13
  intro i a r hi
  unfold prec13 at hi
  split at hi
  · cases hi
  · rename_i c r1 hc
    obtain ⟨x, rfl, hx⟩ := eats_prec10 E h _ _ _ hc
    split at hi
    · cases hi; exact ⟨x, rfl, hx⟩
    · rename_i r2 hd
      have hd' : Eats NotLogic (delimited «meta» (punct c!"?") «meta») := by eats
      obtain ⟨y, rfl, hy⟩ := hd' _ _ _ hd
      have hm : Eats NotLogic (map (seq R.expr (preceded (delimited «meta» (punct c!":") «meta») R.prec13))
        (fun (x : Expr × Expr) => Expr.ternary c x.1 x.2)) := by eats
      obtain ⟨z, rfl, hz⟩ := hm _ _ _ hi
      refine ⟨x ++ (y ++ z), by simp, fun t ht => ?_⟩
      rcases List.mem_append.1 ht with h | ht
      · exact hx t h
      · rcases List.mem_append.1 ht with h | h
        · exact hy t h
        · exact hz t h

theorem eats_prec14 (E : Env) {R : Rec} (h : EatsRec R) : Eats NotLogic (prec14 E R) := by
  have := h.expr
  intro i a r hi
  unfold prec14 at hi
  split at hi
  · cases hi
  · rename_i h1
    exact Eats.chain (p := prec13 E R) (eats_prec13 E h) (by unfold op14; eats) h1 hi

theorem eats_tie (E : Env) : ∀ n, EatsRec (tie E n)
  | 0 => ⟨.fail, .fail, .fail⟩
  | n + 1 => ⟨eats_prec2 E (eats_tie E n), eats_prec13 E (eats_tie E n), eats_prec14 E (eats_tie E n)⟩

theorem eats_expr (E : Env) : Eats NotLogic (parseExpr E) := fun i => (eats_tie E _).expr i

theorem eats_asm (E : Env) : Eats NotLogic (parseAsm E) := by
  have := eats_paren (eats_expr E)
  have := eats_litString
  have h : Eats NotLogic (seq (delimited «meta» (litStringMap parseTemplate) «meta»)
      (seq (opt (preceded (sepBy c!":") (sepList0 (sepBy c!",")
        (seq (litStringMap parseOutputOperands) (parenthesized (parseExpr E))))))
      (seq (opt (preceded (sepBy c!":") (sepList0 (sepBy c!",")
        (seq (litStringMap parseInputOperands) (parenthesized (parseExpr E))))))
      (opt (preceded (sepBy c!":") (sepList0 (sepBy c!",") (litStringMap some))))))) := by
    unfold litStringMap sepBy
    eats
  have := eats_paren h
  unfold parseAsm
  eats

theorem eats_decls (E : Env) : Eats NotLogic (parseFunctionDecl E) ∧ Eats NotLogic (parseVarDecl E) := by
  have h1 := eats_ty E
  have h2 := eats_concatIdent E
  have h3 := eats_expr E
  have h4 : Eats NotLogic (staticTy E) := by unfold staticTy; eats
  have h5 : Eats NotLogic (parenthesized (sepList0 (seq «meta» (punct c!",")) (seq (parseTy E) (parseConcatIdent E)))) :=
    eats_paren (by eats)
  exact ⟨by unfold parseFunctionDecl; eats, by unfold parseVarDecl; eats⟩

theorem eats_single (E : Env) : ∀ n, Eats NotLogic (parseSingle E n)
  | 0 => .fail
  | n + 1 => by
    have h1 := eats_single E n
    have h2 := eats_paren (eats_expr E)
    have h3 := eats_expr E
    have h4 := eats_asm E
    have h5 := (eats_decls E).1
    have h6 := (eats_decls E).2
    have h7 : Eats NotLogic semicolonOrEof := by unfold semicolonOrEof; eats
    unfold parseSingle
    eats

theorem eats_stmt (E : Env) : Eats NotLogic (parseStmt E) := by
  intro i
  have := eats_single E (i.length + 1)
  have h : Eats NotLogic (map (many0 (delimited «meta» (parseSingle E (i.length + 1)) «meta»)) (fun
    | [s] => s
    | ss => Stmt.block ss)) := by eats
  exact h i

theorem eats_body (E : Env) : Eats NotLogic (MacroBody.parse E) := by
  have h1 := eats_expr E
  have h2 := eats_stmt E
  intro i a r h
  unfold MacroBody.parse at h
  split at h
  · cases h
  · rename_i hm
    cases h
    exact eats_meta _ _ _ hm
  · rename_i _ hm
    obtain ⟨x, rfl, hx⟩ := eats_meta _ _ _ hm
    have hp : Eats NotLogic (Parser.or (allConsuming (map (parseExpr E) MacroBody.expr)) (allConsuming (map (parseStmt E) .stmt))) := by eats
    obtain ⟨y, rfl, hy⟩ := hp _ _ _ h
    refine ⟨x ++ y, by simp, fun t ht => ?_⟩
    rcases List.mem_append.1 ht with h | h
    · exact hx t h
    · exact hy t h

theorem allConsuming_rest {σ α : Type} {p : Parser σ α} {i r : List σ} {a : α} (h : allConsuming p i = some (a, r)) : r = [] := by
  unfold allConsuming at h
  split at h
  · cases h; rfl
  · cases h

/-- The parser consumes the whole body. -/
theorem body_rest {E : Env} {i r : List MacroToken} {b : MacroBody} (h : MacroBody.parse E i = some (b, r)) : r = [] := by
  unfold MacroBody.parse at h
  split at h
  · cases h
  · cases h; rfl
  · unfold Parser.or at h
    split at h
    · rename_i h1; cases h; exact allConsuming_rest h1
    · exact allConsuming_rest h

/-- **C36** is false of the code: `a && b` is rejected. -/
theorem C36_false : ¬ C36_statement := by
  intro h
  have := (h asciiEnv asciiEnv_lawful c!"a" c!"b" (by decide +kernel) (by decide +kernel)).1
  have h2 : MacroBody.parse asciiEnv [.ident c!"a", .punct c!"&&", .ident c!"b"] = none := by decide +kernel
  rw [h2] at this
  cases this

/-- **C36**, partial: a body with `&&` or `||` is rejected, so it is never misunderstood. Missing:
understanding it, which the crate does not (`C36_false`). -/
theorem C36_logical_rejected_partial (E : Env) (name : Str) (args body : List MacroToken)
    (h : .punct c!"&&" ∈ body ∨ .punct c!"||" ∈ body) :
    (∀ m, VarMacro.parse E name body ≠ .ok m) ∧ ∀ m, FnMacro.parse E name args body ≠ .ok m := by
  have hn : MacroBody.parse E body = none := by
    rcases hb : MacroBody.parse E body with _ | ⟨b, r⟩
    · rfl
    · obtain ⟨c, hc, hl⟩ := eats_body E _ _ _ hb
      have := body_rest hb
      subst this
      rw [List.append_nil] at hc
      subst hc
      rcases h with h | h
      · exact absurd rfl (hl _ h).1
      · exact absurd rfl (hl _ h).2
  constructor
  · intro m hm
    unfold VarMacro.parse at hm
    rw [hn] at hm
    split at hm <;> cases hm
  · intro m hm
    unfold FnMacro.parse at hm
    rw [hn] at hm
    repeat' split at hm
    all_goals first | (cases hm; done) | simp_all

/-- With `&` or `|` in their place the bodies are accepted. -/
example : VarMacro.parse asciiEnv c!"M" [.ident c!"a", .punct c!"&&", .ident c!"b"] = .error .invalidMacroBody ∧
    parseExpr asciiEnv [.ident c!"a", .punct c!"&", .ident c!"b"]
      = some (.bin (.var (.plain c!"a")) .bitAnd (.var (.plain c!"b")), []) :=
  ⟨rfl, by decide +kernel⟩

end CMacro
