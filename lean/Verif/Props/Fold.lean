import Verif.Proofs.Generate
import Verif.Proofs.Fold
import Verif.Model.Pipeline

/-!
# Properties C26 and C55: constant folding, and termination of code generation
-/

namespace CMacro
open Spec (Value BinValue)

/-- **C26**: a macro whose body is an arithmetic expression over integer literals with value `v`
generates the constant `v`, without a type. -/
theorem C26_folding_exact (C : Ctx) (name : Str) (e : Expr) (v : Int) (h : Value e v) :
    VarMacro.Generates C ⟨name, .expr e⟩ (.ok ([.int v []], none)) := by
  obtain ⟨c, hc, hev⟩ := fold_value (C := C) (L := varLoc C) h .init
  have := varGenerates (name := name) hev
  simpa [varOut, toksOk, RTok.ok, LState.init, Expr.toks, Lit.toks, LitInt.toks, hc] using this

/-- **C26**, for function-like macros: the body folds to the same constant. -/
theorem C26_folding_exact_fn (C : Ctx) (name : Str) (args : List Str) (e : Expr) (v : Int) (h : Value e v)
    (out : GenFn) (ho : FnMacro.Generates C ⟨name, args, .expr e⟩ (.ok out)) :
    ∃ params, out = .macro name params [.int v []] := by
  rcases ha : argTypes C name args with x | tys
  · obtain ⟨N, hN⟩ := ho
    have := hN N (Nat.le_refl _)
    unfold FnMacro.generate at this
    rw [ha] at this
    cases this
  · obtain ⟨c, hc, hev⟩ := fold_value (C := C) (L := fnLoc args) h ⟨tys, false⟩
    have := FnMacro.Generates.unique ho (fnGenerates ha hev)
    simp only [fnOut, Option.isNone_none, Bool.or_true, if_true] at this
    split at this
    · simp only [Except.ok.injEq] at this
      exact ⟨macroParams args tys, by rw [this]; simp [MacroBody.toks, Expr.toks, Lit.toks, LitInt.toks, hc]⟩
    · cases this

/-- `-7 / 2 % 3 - (1 << 3)` and its value, `-8`. -/
example : Value (.bin (.bin (.bin (.un .minus (.lit (.int ⟨7, none⟩))) .div (.lit (.int ⟨2, none⟩))) .rem
    (.lit (.int ⟨3, none⟩))) .sub (.bin (.lit (.int ⟨1, none⟩)) .shl (.lit (.int ⟨3, none⟩)))) (-8) := by
  have l (k : BitVec 128) (v : Int) (h : k.toInt = v) : Value (.lit (.int ⟨k, none⟩)) v := h ▸ .lit
  refine .bin (a := 0) (b := 8) ?_ (.bin (a := 1) (b := (3 : Nat)) (l _ _ (by decide)) (l _ _ (by decide)) (.shl (by omega))
    (by unfold Spec.I128; decide)) .sub (by unfold Spec.I128; decide)
  refine .bin (a := -3) (b := 3) ?_ (l _ _ (by decide)) (.rem (q := -1) (by omega) (by omega) (by omega) (.inl rfl))
    (by unfold Spec.I128; decide)
  exact .bin (a := -7) (b := 2) (.neg (l _ 7 (by decide)) (by unfold Spec.I128; decide)) (l _ _ (by decide))
    (.div (r := -1) (by omega) (by omega) (by omega) (.inr (by omega))) (by unfold Spec.I128; decide)

/-- The whole pipeline on the text `- 7 / 2 % 3 - ( 1 << 3 )`. -/
example : pipeVar 20 (Ctx.unit asciiEnv) [.defineVar c!"M" [c!"-", c!"7", c!"/", c!"2", c!"%", c!"3", c!"-",
      c!"(", c!"1", c!"<<", c!"3", c!")"]] c!"M" = .gen (.ok ([.int (-8) []], none)) := by decide +kernel

/-- **C55**: code generation returns, for every macro body (also one no parser produces) and every
context: there is one result that the calls with all large depth bounds agree on. -/
theorem C55_codegen_terminates (C : Ctx) :
    (∀ m : VarMacro, ∃ r, m.Generates C r ∧ r ≠ .error .diverge) ∧
    (∀ m : FnMacro, ∃ r, m.Generates C r ∧ r ≠ .error .diverge) :=
  ⟨VarMacro.generates_total C, FnMacro.generates_total C⟩

/-- **C55**: and that result is unique. -/
theorem C55_codegen_deterministic (C : Ctx) :
    (∀ (m : VarMacro) r r', m.Generates C r → m.Generates C r' → r = r') ∧
    (∀ (m : FnMacro) r r', m.Generates C r → m.Generates C r' → r = r') :=
  ⟨fun _ _ _ => VarMacro.Generates.unique, fun _ _ _ => FnMacro.Generates.unique⟩

/-- The rewriting of `(x)(y)*(x)z` restarts on a new tree; the result is an `Err` or a product. -/
example : VarMacro.generate 20 (Ctx.unit asciiEnv) ⟨c!"M", .expr (.cast (.builtIn .int)
      (.cast (.ident (.plain c!"y") false) (.un .deref (.cast (.builtIn .int) (.lit (.int ⟨2, none⟩))))))⟩
    = .error (.err (.unsupportedType c!"y")) := by decide +kernel

end CMacro
