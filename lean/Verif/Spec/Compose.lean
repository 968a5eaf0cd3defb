import Verif.Spec.Lex
import Verif.Spec.Arith
import Verif.Spec.Grammar
import Verif.Spec.Store

/-!
# Constants defined by other constants

The text of a constant expression is given its value directly: literals have the value they spell, names have the value of the
constant they denote.  No syntax trees, no expansion of macros.
-/

namespace CMacro.Spec

/-- `ConstText val ℓ ss v`: the words are an expression of the level (levels as in `Gram`), and its value is `v` if `val` gives the
values of names.  All values on the way fit the accumulator. -/
inductive ConstText (val : Str → Option Int) : Nat → List Str → Int → Prop
  | lit {s t ty} {v : Nat} : IntConst s v → v < 2 ^ 127 → (t, ty) ∈ intSuffixes → ConstText val 0 [s ++ t] v
  | name {x v} : val x = some v → ConstText val 0 [x] v
  | paren {ss v} : ConstText val 12 ss v → ConstText val 0 (c!"(" :: (ss ++ [c!")"])) v
  | plus {ss v} : ConstText val 2 ss v → ConstText val 2 (c!"+" :: ss) v
  | neg {ss v} : ConstText val 2 ss v → I128 (-v) → ConstText val 2 (c!"-" :: ss) (-v)
  | bin {ℓ p op ss us a b v} : (ℓ + 1, p, op) ∈ binaryOps → ConstText val (ℓ + 1) ss a → ConstText val ℓ us b →
      BinValue op a b v → I128 v → ConstText val (ℓ + 1) (ss ++ p :: us) v
  | up {ℓ ss v} : ConstText val ℓ ss v → ℓ < 12 → ConstText val (ℓ + 1) ss v

/-- `val` gives the values of constants defined one by the other: each is an identifier defined by a literal, by another constant, or
by an expression in parentheses, whose value is the value of the constant.  `rank` excludes circles. -/
structure Constants (start cont : Char → Bool) (D : Table) (val : Str → Option Int) (rank : Str → Nat) : Prop where
  ident : ∀ x v, val x = some v → IsIdent start cont x ∧ x ≠ c!"__VA_ARGS__"
  defined : ∀ x v, val x = some v → ∃ body, D x = some (.var body) ∧ ConstText val 0 body v ∧
    ∀ w ∈ body, val w ≠ none → rank w < rank x

end CMacro.Spec
