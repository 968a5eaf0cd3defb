import Verif.Proofs.OccursFinish
import Verif.Props.Control

/-!
# Every name occurs as often as in the body

Properties C62.
-/

namespace CMacro
open Spec

/-- C62: let code be generated for a function-like macro, and let a name or parameter be written by neither the code
generator nor the user of the crate.  It occurs in the code as often as in the body: nothing is evaluated twice or dropped. -/
def C62_statement : Prop :=
  ∀ (C : Ctx) (m : FnMacro) (n : Nat) (g : GenFn) (w : Str), m.generate n C = .ok g → OrdinaryWord C w →
    wordCount w g.code = leafCount w m.args (bodyLeaves m.body)

/-- C62, for what is not assigned to, incremented, pointed to as a type, stringified as a pasted name, or an input of an `asm`
with the number of an output. -/
theorem C62_partial (C : Ctx) (m : FnMacro) (n : Nat) (g : GenFn) (w : Str) (hg : m.generate n C = .ok g) (hw : OrdinaryWord C w)
    (ho : BodyOnce w m.args m.body) : wordCount w g.code = leafCount w m.args (bodyLeaves m.body) := by
  unfold FnMacro.generate at hg
  cases ht : argTypes C m.name m.args with
  | error e => rw [ht] at hg; cases hg
  | ok tys =>
    rw [ht] at hg
    dsimp only at hg
    have hk := body_finish_count (unbuilt hw) (expr_finish_count (L := fnLoc m.args) (unbuilt hw) n) m.body ⟨tys, false⟩ ho
    generalize m.body.finish C (Expr.finish C (fnLoc m.args) n) ⟨tys, false⟩ = R at *
    rcases R with ⟨b, st, e | ret⟩
    · cases hg
    · dsimp only at hg hk
      have key : ∀ x, wordCount w (b.toks ⟨C, fnLoc m.args, x⟩) = leafCount w m.args (bodyLeaves m.body) := by
        intro x
        rw [← hk.2]
        cases b with
        | expr e => exact wc_expr hw rfl rfl hk.1
        | stmt s => exact wc_stmt hw rfl rfl hk.1
      generalize (st.exportAsMacro || (C.function m.name).isSome || namesVariadic m.args || !st.argTypes.all ArgTy.isKnown
        || Option.isNone ret) = x at hg
      cases x <;> simp only [Bool.false_eq_true, if_false, if_true] at hg <;> split at hg <;> cases hg <;> exact key _

/-! ## Examples -/

/-- A name that is not one of the words of the code generator, and not a number. -/
theorem ordinary_unit {E : Env} {w : Str} (h : w ∉ ownWords) (hd : ∃ c ∈ w, c.isDigit = false) : OrdinaryWord (.unit E) w where
  own := h
  notNumber := by
    rintro n rfl
    obtain ⟨c, hc, hd⟩ := hd
    rw [Nat.isDigit_of_mem_toDigits (by decide) (by decide) hc] at hd
    cases hd
  types := fun _ _ h => nomatch h
  ffi := fun _ h => nomatch h
  trait := fun _ h => nomatch h
  notVariant := rfl
  variants := fun _ _ _ h => nomatch h

/-- `#define M(x) f ( x ) ? g ( x ) : - 1`. -/
def twiceMacro : FnMacro :=
  ⟨c!"M", [c!"x"], .expr (.ternary (.call (.plain c!"f") [.var (.arg 0)]) (.call (.plain c!"g") [.var (.arg 0)])
    (.un .minus (.lit (.int ⟨1, none⟩))))⟩

/-- `if f ( ( $x ) . into ( ) ) != 0 { g ( ( $x ) . into ( ) ) } else { -1 }`. -/
def twiceToks : List RTok :=
  q!"if f ( ( $ x ) . into ( ) ) !=" ++ .int 0 [] :: q!"{ g ( ( $ x ) . into ( ) ) } else {" ++ [.int (-1) [], .punct c!"}"]

/-- The parameter is used twice, as in C, and `f` and `g` are called once. -/
example : twiceMacro.generate 9 (.unit asciiEnv) = .ok (.macro c!"M" [q!"$ x : expr"] twiceToks) ∧
    wordCount c!"x" twiceToks = 2 ∧ wordCount c!"f" twiceToks = 1 ∧ wordCount c!"g" twiceToks = 1 := by
  have hg : twiceMacro.generate 9 (.unit asciiEnv) = .ok (.macro c!"M" [q!"$ x : expr"] twiceToks) := rfl
  have h := fun w hw hd => C62_partial _ _ _ _ w hg (ordinary_unit hw hd) (by simp [BodyOnce, twiceMacro, ExprOnce, ExprsOnce, changes])
  exact ⟨hg, h c!"x" (by decide) (by decide), h c!"f" (by decide) (by decide), h c!"g" (by decide) (by decide)⟩

/-! ## The full claim is false -/

/-- `#define SET() * next ( ) = 1`. -/
def setMacro : FnMacro := ⟨c!"SET", [], .expr (.bin (.un .deref (.call (.plain c!"next") [])) .assign (.lit (.int ⟨1, none⟩)))⟩

/-- `{ * next ( ) = 1 ; * next ( ) }`. -/
def setToks : List RTok := q!"{ * next ( ) =" ++ .int 1 [] :: q!"; * next ( ) }"

/-- The full claim is false: `* next ( ) = 1` becomes `{ * next ( ) = 1 ; * next ( ) }`, which calls `next` twice. -/
theorem C62_false : ¬ C62_statement := by
  intro h
  have hg : setMacro.generate 9 (.unit asciiEnv) = .ok (.macro c!"SET" [] setToks) := rfl
  have := h _ _ _ _ c!"next" hg (ordinary_unit (by decide) (by decide))
  exact absurd this (by decide)

/-- `( x * ) 0` becomes `ptr :: null_mut ( )`, without the parameter. -/
example : ∃ g, (⟨c!"NIL", [c!"x"], .expr (.cast (.ptr (.ident (.arg 0) false)) (.lit (.int ⟨0, none⟩)))⟩ : FnMacro).generate 9 (.unit asciiEnv) = .ok g ∧
    wordCount c!"x" g.code = 0 := ⟨_, rfl, rfl⟩

/-- `x ++` becomes `{ let prev = $x ; $x += 1 ; prev }`, with the parameter twice. -/
example : ∃ g, (⟨c!"INC", [c!"x"], .expr (.un .postInc (.var (.arg 0)))⟩ : FnMacro).generate 9 (.unit asciiEnv) = .ok g ∧
    wordCount c!"x" g.code = 2 := ⟨_, rfl, rfl⟩

end CMacro
