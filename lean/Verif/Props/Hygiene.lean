import Verif.Proofs.Hygiene
import Verif.Props.FnValue

/-!
# Variables of generated functions

Property C67.
-/

namespace CMacro
open Spec

/-- C67: generated code introduces no variable with a name that it looks up, unless the macro itself declares one.  Such a variable
would hide what the name stands for: an argument of the function, or an item outside. -/
def C67_statement : Prop :=
  ∀ (C : Ctx) (m : FnMacro) (n : Nat) (g : GenFn) (x : Str), NoLet C m → m.generate n C = .ok g → UsesName m g x →
    ¬ DeclaresVar m.args m.body x → ¬ Rebinds x (codeOf g)

/-- C67, for every name other than `value`, `prev` and `_`, which the code generator uses for its own variables, whether the code
looks it up or not. -/
theorem C67_partial (C : Ctx) (m : FnMacro) (n : Nat) (g : GenFn) (x : Str) (hn : NoLet C m) (hg : m.generate n C = .ok g)
    (hd : ¬ DeclaresVar m.args m.body x) (hx : x ∉ [c!"value", c!"prev", c!"_"]) (hm : x ≠ c!"mut") : ¬ Rebinds x (codeOf g) := by
  have hu : Unbuilt C c!"let" := ⟨hn.types, by decide⟩
  unfold FnMacro.generate at hg
  cases ht : argTypes C m.name m.args with
  | error e => rw [ht] at hg; cases hg
  | ok tys =>
    rw [ht] at hg
    dsimp only at hg
    have hw := name_zero.1 (body_zero hu (expr_finish_count (L := fnLoc m.args) hu n) m.body ⟨tys, false⟩ (name_zero.2 hn.body))
    have hb := bodyDeclared_finish (C := C) (f := Expr.finish C (fnLoc m.args) n) m.body ⟨tys, false⟩
    generalize m.body.finish C (Expr.finish C (fnLoc m.args) n) ⟨tys, false⟩ = R at *
    rcases R with ⟨b, st, e | r⟩
    · cases hg
    · dsimp only at hg hw hb
      generalize hexp : (st.exportAsMacro || (C.function m.name).isSome || namesVariadic m.args || !st.argTypes.all ArgTy.isKnown
        || Option.isNone r) = y at hg
      have hc : letOk x (b.toks ⟨C, fnLoc m.args, y⟩) = true := by
        refine pi_body (letOk_inv hx hn) (fun y hy he => hw (he ▸ hy)) fun d hmem hdx => hd ?_
        rw [hb] at hmem
        exact ⟨d, hmem, hdx⟩
      cases y <;> simp only [Bool.false_eq_true, if_false, if_true] at hg <;> split at hg <;> cases hg <;> exact letOk_rebinds hm hc

/-! ## Examples -/

/-- A context in which the parameters of every macro are `int`s. -/
def intArgs : Ctx :=
  { Ctx.unit asciiEnv with macroArgTy := fun _ _ => some (.path .plain ⟨false, [c!"c_int"]⟩) }

theorem noLet_intArgs {m : FnMacro} (ha : c!"let" ∉ m.args) (hb : Leaf.name c!"let" ∉ bodyLeaves m.body) : NoLet intArgs m where
  args := ha
  body := hb
  types := by intro _ _ h; cases h
  ffi := by intro _ h; cases h
  trait := by intro _ h; cases h
  variants := by intro _ _ _ h; cases h

/-- `*(volatile int *)p = 0`. -/
def storeExpr : Expr :=
  .bin (.un .deref (.cast (.ptr (.qualified (.builtIn .int) .volatile)) (.var (.arg 0)))) .assign (.lit (.int ⟨0, none⟩))

/-- `{ let value = 0 ; ptr :: write_volatile ( p as * mut c_int , value ) ; value }`. -/
def storeToks (p : Str) : List RTok :=
  q!"{ let value =" ++ .int 0 [] :: q!"; ptr :: write_volatile (" ++ .id p :: q!"as * mut c_int , value ) ; value }"

/-- `#define CLEAR(p) *(volatile int *)p = 0` introduces a variable of its own, but no `p`. -/
example : (⟨c!"CLEAR", [c!"p"], .expr storeExpr⟩ : FnMacro).generate 9 intArgs
      = .ok (.fn c!"CLEAR" [q!"p : c_int"] (some (q!"c_int")) (storeToks c!"p")) ∧
    Rebinds c!"value" (storeToks c!"p") ∧ ¬ Rebinds c!"p" (storeToks c!"p") := by
  have hg : (⟨c!"CLEAR", [c!"p"], .expr storeExpr⟩ : FnMacro).generate 9 intArgs
      = .ok (.fn c!"CLEAR" [q!"p : c_int"] (some (q!"c_int")) (storeToks c!"p")) := by decide +kernel
  refine ⟨hg, .inl ⟨q!"{", _, rfl⟩, C67_partial _ _ _ _ _ (noLet_intArgs (by decide) ?_) hg ?_ (by decide) (by decide)⟩
  · simp [storeExpr, bodyLeaves, exprLeaves, nameLeaves, tyLeaves, litLeaves]
  · rintro ⟨_, h, _⟩
    cases h

/-- `{ int t = x ; t += y ; }`. -/
def addStmt : Stmt :=
  .block [.varDecl ⟨.builtIn .int, .plain c!"t", .var (.arg 0), false⟩, .expr (.bin (.var (.plain c!"t")) .addAssign (.var (.arg 1)))]

/-- `let mut t : c_int = $x ; { t += $y ; t } ;`. -/
def addToks : List RTok := q!"{ let mut t : c_int = $ x ; { t += $ y ; t } ; }"

/-- `#define ADD(x, y) { int t = x ; t += y ; }` introduces the variable that the macro declares, and no other. -/
example : (⟨c!"ADD", [c!"x", c!"y"], .stmt addStmt⟩ : FnMacro).generate 9 (.unit asciiEnv)
      = .ok (.macro c!"ADD" [q!"$ x : expr", q!"$ y : expr"] addToks) ∧
    Rebinds c!"t" addToks ∧ ¬ Rebinds c!"x" addToks ∧ ¬ Rebinds c!"u" addToks := by
  have hg : (⟨c!"ADD", [c!"x", c!"y"], .stmt addStmt⟩ : FnMacro).generate 9 (.unit asciiEnv)
      = .ok (.macro c!"ADD" [q!"$ x : expr", q!"$ y : expr"] addToks) := by decide +kernel
  have hn : NoLet (.unit asciiEnv) ⟨c!"ADD", [c!"x", c!"y"], .stmt addStmt⟩ := by
    refine ⟨by decide, ?_, ?_, ?_, ?_, ?_⟩
    · simp [addStmt, bodyLeaves, stmtLeaves, stmtsLeaves, exprLeaves, nameLeaves, tyLeaves]
    · intro _ _ h; cases h
    · intro _ h; cases h
    · intro _ h; cases h
    · intro _ _ _ h; cases h
  have hd : ∀ x, x ≠ c!"t" → ¬ DeclaresVar [c!"x", c!"y"] (.stmt addStmt) x := by
    rintro x hx ⟨n, h, hn⟩
    simp only [bodyDeclared, addStmt, declared, declaredL, List.append_nil, List.mem_singleton] at h
    subst h
    simp [Ne.symm hx] at hn
  exact ⟨hg, .inr ⟨q!"{", _, rfl⟩, C67_partial _ _ _ _ _ hn hg (hd _ (by decide)) (by decide) (by decide),
    C67_partial _ _ _ _ _ hn hg (hd _ (by decide)) (by decide) (by decide)⟩

/-! ## The full claim is false -/

/-- The full claim is false: in `#define CLEAR(value) *(volatile int *)value = 0` the parameter is hidden by the variable that holds
the value to be written.  The function writes to the address 0. -/
theorem C67_false : ¬ C67_statement := by
  intro h
  have hg : (⟨c!"CLEAR", [c!"value"], .expr storeExpr⟩ : FnMacro).generate 9 intArgs
      = .ok (.fn c!"CLEAR" [q!"value : c_int"] (some (q!"c_int")) (storeToks c!"value")) := by decide +kernel
  refine h _ _ _ _ c!"value" (noLet_intArgs (by decide) ?_) hg (.inr (by simp)) ?_ (.inl ⟨q!"{", _, rfl⟩)
  · simp [storeExpr, bodyLeaves, exprLeaves, nameLeaves, tyLeaves, litLeaves]
  · rintro ⟨_, h, _⟩
    cases h

/-- `*(volatile int *)value = x`, in which `value` is not a parameter. -/
def storeGlobal : Expr :=
  .bin (.un .deref (.cast (.ptr (.qualified (.builtIn .int) .volatile)) (.var (.plain c!"value")))) .assign (.var (.arg 0))

/-- Likewise for a variable outside, also in a generated macro: `#define SET(x) *(volatile int *)value = x` writes `x` to the address
`x`. -/
theorem C67_false_global : ¬ C67_statement := by
  intro h
  have hg : (⟨c!"SET", [c!"x"], .expr storeGlobal⟩ : FnMacro).generate 9 (.unit asciiEnv)
      = .ok (.macro c!"SET" [q!"$ x : expr"]
        (q!"{ let value = $ x ; ptr :: write_volatile ( value as * mut c_int , value ) ; value }")) := by decide +kernel
  refine h _ _ _ _ c!"value" ⟨by decide, ?_, ?_, ?_, ?_, ?_⟩ hg ?_ ?_ (.inl ⟨q!"{", _, rfl⟩)
  · simp [storeGlobal, bodyLeaves, exprLeaves, nameLeaves, tyLeaves]
  · intro _ _ h; cases h
  · intro _ h; cases h
  · intro _ h; cases h
  · intro _ _ _ h; cases h
  · simp [UsesName, storeGlobal, bodyLeaves, exprLeaves, nameLeaves, tyLeaves]
  · rintro ⟨_, h, _⟩
    cases h

/-- Likewise `#define NEXT(prev) prev++`: the function increments a copy, in a variable that is not `mut`. -/
theorem C67_false_prev : ¬ C67_statement := by
  intro h
  have hg : (⟨c!"NEXT", [c!"prev"], .expr (.un .postInc (.var (.arg 0)))⟩ : FnMacro).generate 9 intArgs
      = .ok (.fn c!"NEXT" [q!"prev : c_int"] (some (q!"c_int")) (q!"{ let prev = prev ; prev +=" ++ .int 1 [] :: q!"; prev }")) := by
    decide +kernel
  refine h _ _ _ _ c!"prev" (noLet_intArgs (by decide) ?_) hg (.inr (by simp)) ?_ (.inl ⟨q!"{", _, rfl⟩)
  · simp [bodyLeaves, exprLeaves, nameLeaves]
  · rintro ⟨_, h, _⟩
    cases h

end CMacro
