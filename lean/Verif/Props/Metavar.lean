import Verif.Proofs.Metavar
import Verif.Props.Occurs
import Verif.Props.Ambig

/-!
# The parameters of generated macros

Properties C65.
-/

namespace CMacro
open Spec

/-- C65: a generated macro declares exactly the parameters of the C macro, each with a fragment specifier.  Every `$` in its body
starts one of them, and a parameter is never written as a plain name, which would be looked up where the macro is defined. -/
def C65_statement : Prop :=
  ∀ (C : Ctx) (m : FnMacro) (n : Nat) (name : Str) (params : List (List RTok)) (body : List RTok), C.env.Lawful →
    (∀ id t e, C.resolveEnumVariant id = some (t, e) → RTok.punct c!"$" ∉ e) → ParamsReplaced m.args (bodyLeaves m.body) →
    m.generate n C = .ok (.macro name params body) →
    (params.length = m.args.length ∧ ∀ (i : Nat) (x : Str), m.args[i]? = some x → ∃ p, params[i]? = some p ∧ Declares x p) ∧
      Metavars C m.args body

/-- C65, when no parameter is named `crate`. -/
theorem C65_partial (C : Ctx) (m : FnMacro) (n : Nat) (name : Str) (params : List (List RTok)) (body : List RTok) (hE : C.env.Lawful)
    (hv : ∀ id t e, C.resolveEnumVariant id = some (t, e) → RTok.punct c!"$" ∉ e) (hr : ParamsReplaced m.args (bodyLeaves m.body))
    (hc : c!"crate" ∉ m.args) (hg : m.generate n C = .ok (.macro name params body)) :
    (params.length = m.args.length ∧ ∀ (i : Nat) (x : Str), m.args[i]? = some x → ∃ p, params[i]? = some p ∧ Declares x p) ∧
      Metavars C m.args body := by
  unfold FnMacro.generate at hg
  cases ht : argTypes C m.name m.args with
  | error e => rw [ht] at hg; cases hg
  | ok tys =>
    rw [ht] at hg
    dsimp only at hg
    have hw := replaced_finish (C := C) (L := fnLoc m.args) m.body n ⟨tys, false⟩ hr
    have hlen := (MacroBody.finish_inv (NodeInv.triv C (fnLoc m.args)) (Expr.finish_inv (NodeInv.triv C (fnLoc m.args)) n) m.body ⟨tys, false⟩).1.1
    generalize m.body.finish C (Expr.finish C (fnLoc m.args) n) ⟨tys, false⟩ = R at *
    rcases R with ⟨b, st, e | ret⟩
    · cases hg
    · dsimp only at hg hw hlen
      generalize (st.exportAsMacro || (C.function m.name).isSome || namesVariadic m.args || !st.argTypes.all ArgTy.isKnown
        || Option.isNone ret) = x at hg
      cases x <;> simp only [Bool.false_eq_true, if_false, if_true] at hg <;> split at hg <;> cases hg
      rename_i hok
      refine ⟨macroParams_get (hlen.trans (argTypes_length ht)) hc, ?_⟩
      refine (pi_body (metas_inv (L := fnLoc m.args) rfl hv) hw fun _ _ => trivial).metavars hE hc ?_
      simp only [GenFn.toks, toksOk, List.all_append, Bool.and_eq_true] at hok ⊢
      exact hok.1.1.1.1.1.2

/-! ## Examples -/

/-- `#define CHECK(cond, msg, ...) log ( #cond , msg , __VA_ARGS__ ) + cond`. -/
def checkMacro : FnMacro :=
  ⟨c!"CHECK", [c!"cond", c!"msg", c!"..."],
    .expr (.bin (.call (.plain c!"log") [.stringify (.arg 0), .var (.arg 1), .var (.arg 2)]) .add (.var (.arg 0)))⟩

/-- `log ( { … stringify ! ( $cond ) … } , ( $msg ) . into ( ) , $ ( $ __VA_ARGS__ ) , * ) + $cond`. -/
def checkToks : List RTok :=
  q!"log ( ( { const BYTES : & [ u8 ] = concat ! ( stringify ! ( $ cond ) ," ++ .char '\x00' ::
    q!") . as_bytes ( ) ; BYTES . as_ptr ( ) as * const c_char } ) . into ( ) , ( $ msg ) . into ( ) , $ ( $ __VA_ARGS__ ) , * ) + $ cond"

/-- Stringified, passed on, and variable arguments. -/
example : checkMacro.generate 9 (.unit asciiEnv) = .ok (.macro c!"CHECK" [q!"$ cond : expr", q!"$ msg : expr", q!"$ ( $ __VA_ARGS__ : expr ) , *"] checkToks) ∧
    Metavars (.unit asciiEnv) [c!"cond", c!"msg", c!"..."] checkToks := by
  have hg : checkMacro.generate 9 (.unit asciiEnv) =
    .ok (.macro c!"CHECK" [q!"$ cond : expr", q!"$ msg : expr", q!"$ ( $ __VA_ARGS__ : expr ) , *"] checkToks) := by decide +kernel
  exact ⟨hg, (C65_partial _ _ _ _ _ _ asciiEnv_lawful (by intro _ _ _ h; cases h)
    (by intro x hx; simp [checkMacro] at hx; rcases hx with rfl | rfl | rfl <;> simp [checkMacro, bodyLeaves, exprLeaves, exprsLeaves, nameLeaves])
    (by decide) hg).2⟩

/-- A parameter without `$`, and a `$` without parameter, are not accepted. -/
example : ¬ Metavars (.unit asciiEnv) [c!"cond"] q!"stringify ! ( cond )" ∧ ¬ Metavars (.unit asciiEnv) [c!"cond"] q!"$ con" := by
  constructor
  · intro h
    cases h with
    | tok _ _ h => cases h with
      | tok _ _ h => cases h with
        | tok _ _ h => cases h with
          | tok _ hx h => exact hx c!"cond" rfl (ordinary_unit (by decide) (by decide)) (by simp)
  · intro h
    cases h with
    | metavar h => exact absurd h (by decide)
    | tok h => exact h rfl

/-! ## The full claim is false -/

/-- `#define ID(crate) crate`. -/
def crateMacro : FnMacro := ⟨c!"ID", [c!"crate"], .expr (.var (.arg 0))⟩

/-- The full claim is false: a parameter named `crate` becomes `$crate`, which stands for the crate of the macro. -/
theorem C65_false : ¬ C65_statement := by
  intro h
  have hg : crateMacro.generate 9 (.unit asciiEnv) = .ok (.macro c!"ID" [q!"$ crate : expr"] q!"$ crate") := by decide +kernel
  have := (h _ _ _ _ _ _ asciiEnv_lawful (by intro _ _ _ h; cases h) (by intro x _; simp [crateMacro, bodyLeaves, exprLeaves, nameLeaves]) hg).2
  cases this with
  | metavar _ _ h _ => exact h rfl
  | tok h => exact h rfl

end CMacro
