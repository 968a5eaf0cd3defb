import Verif.Proofs.GramParse

/-!
# C35: expressions parse with the precedence and associativity of C
-/

namespace CMacro
open Parser Spec

/-! ## From the grammar -/

/-- Every token sequence that the grammar of C (`Spec.Gram`) reads as a tree is read as that tree. -/
theorem C35_grammar (E : Env) {ts : List MacroToken} {e : Expr} (h : Gram 12 ts e) : parseExpr E ts = some (e, []) := by
  have := h.reads E [] (.inl rfl)
  rwa [List.append_nil] at this

theorem Spec.Gram.body (E : Env) {ts : List MacroToken} {e : Expr} (h : Gram 12 ts e) : MacroBody.parse E ts = some (.expr e, []) := by
  have hm : «meta» ts = some ([], ts) := by
    have := h.start.noComment []
    rw [List.append_nil] at this
    exact meta_none this
  unfold MacroBody.parse
  rw [hm]
  cases ts with
  | nil => obtain ⟨k, t, u, hs, _⟩ := h.start; simp at hs
  | cons t ts => simp only [Parser.or, allConsuming, map, C35_grammar E h]

/-- **C35**, for the grammar: a macro whose body the grammar of C reads as a tree has that tree as its body. -/
theorem C35_var_grammar (E : Env) {name : Str} (hn : isIdentifier E name = true) {ts : List MacroToken} {e : Expr} (h : Gram 12 ts e) :
    VarMacro.parse E name ts = .ok ⟨name, .expr e⟩ := by
  simp only [VarMacro.parse, hn, if_true, h.body E]

/-- The same for function-like macros. -/
theorem C35_fn_grammar (E : Env) {name : Str} (hn : isIdentifier E name = true) {as : List MacroToken} {xs : List Str} {r : List MacroToken}
    (ha : FnMacro.parseArgs as = some (xs, r)) {ts : List MacroToken} {e : Expr} (h : Gram 12 ts e) :
    FnMacro.parse E name as ts = .ok ⟨name, xs, .expr e⟩ := by
  simp only [FnMacro.parse, hn, if_true, ha, h.body E]

/-- Two parameters. -/
example : FnMacro.parseArgs [.ident c!"x", .ident c!"y"] = some ([c!"x", c!"y"], []) := by decide +kernel

theorem Spec.Gram.ups {ℓ n : Nat} {ts : List MacroToken} {e : Expr} (h : Gram ℓ ts e) (hl : ℓ ≤ n) (hn : n ≤ 12) : Gram n ts e := by
  induction n with
  | zero => obtain rfl : ℓ = 0 := by omega
            exact h
  | succ n ih =>
    by_cases hx : ℓ = n + 1
    · exact hx ▸ h
    · exact .up (ih (by omega) (by omega)) (by omega)

/-- The grammar reads no token sequence in two ways. -/
theorem C35_unambiguous {ts : List MacroToken} {e e' : Expr} (h : Gram 12 ts e) (h' : Gram 12 ts e') : e = e' := by
  have h1 := C35_grammar asciiEnv h
  rw [C35_grammar asciiEnv h'] at h1
  cases h1
  rfl

/-! ## Trees written with the fewest parentheses -/

theorem gram_wrap {ℓ n : Nat} {ts : List MacroToken} {e : Expr} (h : Gram ℓ ts e) (hn : n ≤ 12) (hℓ : ℓ ≤ 12)
    (hv : ∀ x, e = .var x → ℓ = 0) : Gram n (wrap n ℓ ts) e := by
  unfold wrap
  split
  · exact h.ups (by assumption) hn
  · refine Gram.ups (.paren (h.ups hℓ (by omega)) ?_) (Nat.zero_le _) hn
    rintro t x ht rfl
    have := hv x (C35_unambiguous (h.ups hℓ (Nat.le_refl _)) (.ups (.name ht) (Nat.zero_le _) (Nat.le_refl _)))
    omega

theorem binName_mem {op : BinOp} {ℓ : Nat} {p : Str} (h : binName op = some (ℓ, p)) : (ℓ, p, op) ∈ binaryOps ∧ 3 ≤ ℓ ∧ ℓ ≤ 10 := by
  cases op <;> first | (cases h; decide) | cases h

theorem assignName_mem {op : BinOp} (h : binName op = none) (h1 : op ≠ .and) (h2 : op ≠ .or) (h3 : op ≠ .memberAccess) :
    ((assignName op).getD [], op) ∈ assignOps := by
  cases op <;> first | decide | contradiction | cases h

theorem level_le (e : Expr) : level e ≤ 12 := by
  unfold level
  split
  · split <;> decide
  · split
    · rename_i h; have := binName_mem h; omega
    · decide
  · decide
  · decide

theorem level_var {e : Expr} (x : IdentExpr) (h : e = .var x) : level e = 0 := by rw [h]; rfl

/-- The tokens of an operator tree are read by the grammar as the tree. -/
theorem write_gram : ∀ {e : Expr}, OpTree e → Gram (level e) (write e) e
  | .var (.plain x), h => .name (.ident h)
  | .var (.arg i), _ => .name .arg
  | .lit l, _ => .lit
  | .un op e, h => by
    have he := write_gram (e := e) h
    have h0 := gram_wrap he (n := 0) (by decide) (level_le e) level_var
    have h2 := gram_wrap he (n := 2) (by decide) (level_le e) level_var
    cases op <;> first | exact .postInc h0 | exact .postDec h0 | exact .pre (by decide) h2
  | .bin a op b, ⟨h1, h2, h3, ha, hb⟩ => by
    have ga := fun n hn => gram_wrap (n := n) (write_gram ha) hn (level_le a) level_var
    have gb := fun n hn => gram_wrap (n := n) (write_gram hb) hn (level_le b) level_var
    simp only [level, write]
    cases heq : binName op with
    | some x =>
      obtain ⟨ℓ, p⟩ := x
      obtain ⟨hm, hl, hl'⟩ := binName_mem heq
      obtain ⟨k, rfl⟩ : ∃ k, ℓ = k + 1 := ⟨ℓ - 1, by omega⟩
      exact .bin hm (ga _ (by omega)) (gb k (by omega))
    | none =>
      exact .assign (assignName_mem heq h1 h2 h3) (ga 2 (by omega)) (gb 12 (by omega))
  | .ternary c a b, ⟨hc, ha, hb⟩ =>
    .cond (gram_wrap (write_gram hc) (by decide) (level_le c) level_var) (gram_wrap (write_gram ha) (by decide) (level_le a) level_var)
      (gram_wrap (write_gram hb) (by decide) (level_le b) level_var)

/-- **C35.** -/
theorem C35_round_trip (E : Env) {name : Str} (hn : isIdentifier E name = true) {e : Expr} (h : OpTree e) :
    VarMacro.parse E name (write e) = .ok ⟨name, .expr e⟩ :=
  C35_var_grammar E hn ((write_gram h).ups (level_le e) (Nat.le_refl _))

/-- Names for the examples. -/
def exVar (x : Str) : Expr := .var (.plain x)

/-- `a - (b - c) - d * e`: the parentheses stay, `-` is left associative, `*` binds tighter. -/
example : write (.bin (.bin (exVar c!"a") .sub (.bin (exVar c!"b") .sub (exVar c!"c"))) .sub (.bin (exVar c!"d") .mul (exVar c!"e"))) =
    [.ident c!"a", .punct c!"-", .punct c!"(", .ident c!"b", .punct c!"-", .ident c!"c", .punct c!")", .punct c!"-", .ident c!"d",
     .punct c!"*", .ident c!"e"] := by decide +kernel

example : OpTree (.bin (.bin (exVar c!"a") .sub (.bin (exVar c!"b") .sub (exVar c!"c"))) .sub (.bin (exVar c!"d") .mul (exVar c!"e"))) := by
  simp only [OpTree, exVar]
  decide +kernel

/-- `x = y |= a < b ? c : d ? e : (p = q)`. -/
example : write (.bin (exVar c!"x") .assign (.bin (exVar c!"y") .bitOrAssign (.ternary (.bin (exVar c!"a") .lt (exVar c!"b")) (exVar c!"c")
      (.ternary (exVar c!"d") (exVar c!"e") (.bin (exVar c!"p") .assign (exVar c!"q")))))) =
    [.ident c!"x", .punct c!"=", .ident c!"y", .punct c!"|=", .ident c!"a", .punct c!"<", .ident c!"b", .punct c!"?", .ident c!"c",
     .punct c!":", .ident c!"d", .punct c!"?", .ident c!"e", .punct c!":", .punct c!"(", .ident c!"p", .punct c!"=", .ident c!"q",
     .punct c!")"] := by decide +kernel

/-- `-*p++ + (x + 1)[y]->z` is in the grammar, and so is `(unsigned char *) f(x, 1) + sizeof(int)`. -/
example : Gram 12 [.punct c!"-", .punct c!"*", .ident c!"p", .punct c!"++", .punct c!"+", .punct c!"(", .ident c!"x", .punct c!"+",
      .lit (.int ⟨1, none⟩), .punct c!")", .punct c!"[", .ident c!"y", .punct c!"]", .punct c!"->", .ident c!"z"]
    (.bin (.un .minus (.un .deref (.un .postInc (exVar c!"p")))) .add
      (.bin (.un .deref (.un .deref (.bin (.bin (exVar c!"x") .add (.lit (.int ⟨1, none⟩))) .add (exVar c!"y")))) .memberAccess (exVar c!"z"))) := by
  have hx : ∀ x, x ∉ cKeywords → Gram 0 [.ident x] (exVar x) := fun x h => .name (.ident h)
  have hp : Gram 2 ([.ident c!"p"] ++ [.punct c!"++"]) _ := .up (.postInc (hx c!"p" (by decide))) (by decide)
  have hs : Gram 12 ([.ident c!"x"] ++ .punct c!"+" :: [.lit (.int ⟨1, none⟩)]) _ :=
    .ups (.bin (ℓ := 3) (op := .add) (by decide) ((hx c!"x" (by decide)).ups (by decide) (by decide)) (.ups .lit (by decide) (by decide))) (by decide) (by decide)
  have hr : Gram 0 _ _ := .arrow (.index (.paren hs (by rintro t n _ ⟨⟩)) ((hx c!"y" (by decide)).ups (by decide) (by decide)))
    (.ident (show c!"z" ∉ cKeywords by decide))
  exact .ups (.bin (ℓ := 3) (p := c!"+") (op := .add) (by decide) (.ups (.pre (p := c!"-") (op := .minus) (by decide) (.pre (p := c!"*") (op := .deref) (by decide) hp)) (by decide) (by decide))
    (hr.ups (by decide) (by decide))) (by decide) (by decide)

example : Gram 12 [.punct c!"(", .ident c!"unsigned", .ident c!"char", .punct c!"*", .punct c!")", .ident c!"f", .punct c!"(", .arg 0,
      .punct c!",", .lit (.int ⟨1, none⟩), .punct c!")", .punct c!"+", .ident c!"sizeof", .punct c!"(", .ident c!"int", .punct c!")"]
    (.bin (.cast (.ptr (.builtIn .uChar)) (.call (.plain c!"f") [.var (.arg 0), .lit (.int ⟨1, none⟩)])) .add (.sizeOf (.builtIn .int))) := by
  have hc : Args ([.arg 0] ++ .punct c!"," :: [.lit (.int ⟨1, none⟩)]) _ :=
    .more (.ups (.name .arg) (by decide) (by decide)) (.one (.ups .lit (by decide) (by decide)))
  have hf : Gram 2 _ _ := .ups (.call (.ident (show c!"f" ∉ cKeywords by decide)) hc) (by decide) (by decide)
  have ht : Spec.TypeName ([c!"unsigned", c!"char"].map .ident ++ [.punct c!"*"]) (.ptr (.builtIn .uChar)) :=
    .ptr (.int ⟨_, by decide, .refl _⟩ (by decide) (by decide))
  have hi : Spec.TypeName ([c!"int"].map .ident) (.builtIn .int) := .int ⟨_, by decide, .refl _⟩ (by decide) (by decide)
  exact .ups (.bin (ℓ := 3) (p := c!"+") (op := .add) (by decide) (.ups (.cast ht hf) (by decide) (by decide))
    (.ups (.sizeOf hi) (by decide) (by decide))) (by decide) (by decide)

/-- Outside the grammar: `p++[0]` and `s.f(1)` are C, but are rejected; `(f)(x)` is read as a cast. -/
example : MacroBody.parse asciiEnv [.ident c!"p", .punct c!"++", .punct c!"[", .lit (.int ⟨0, none⟩), .punct c!"]"] = none := by
  kernel_rfl

example : MacroBody.parse asciiEnv [.ident c!"s", .punct c!".", .ident c!"f", .punct c!"(", .lit (.int ⟨1, none⟩), .punct c!")"] = none := by
  kernel_rfl

example : MacroBody.parse asciiEnv [.punct c!"(", .ident c!"f", .punct c!")", .punct c!"(", .ident c!"x", .punct c!")"] =
    some (.expr (.cast (.ident (.plain c!"f") false) (exVar c!"x")), []) := by
  kernel_rfl

end CMacro
