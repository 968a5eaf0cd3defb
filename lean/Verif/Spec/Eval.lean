import Verif.Spec.Lex
import Verif.Spec.Arith
import Verif.Spec.Grammar
import Verif.Spec.Expand

/-!
# What a text with macros computes

The value of a constant expression with names of macros and calls of macros, without replacing text: a name has the value of its
definition, a call has the value of the definition for the values of the arguments.
-/

namespace CMacro.Spec

/-- The arguments of a call, separated by commas. -/
def commaWords : List (List Str) → List Str
  | [] => []
  | [a] => a
  | a :: as => a ++ c!"," :: commaWords as

/-- The values of the parameters. -/
def bindParams (params : List Str) (vs : List Int) (p : Str) : Option Int := (paramIndex params p).bind (vs[·]?)

/-- `Eval start cont D S ρ ℓ ss v`: the words are an expression of the level (levels as in `Gram`) with the value `v`; `D` are the
definitions, `S` are the macros whose definition is being read, and `ρ` gives the values of parameters.  A parameter can be any
expression, so it is of the highest level and needs parentheses next to an operator; definitions are of the lowest level: literals,
expressions in parentheses, names and calls of other macros.  All values on the way fit the accumulator. -/
inductive Eval (start cont : Char → Bool) (D : Table) : List Str → (Str → Option Int) → Nat → List Str → Int → Prop
  | lit {S ρ s t ty} {v : Nat} : IntConst s v → v < 2 ^ 127 → (t, ty) ∈ intSuffixes → Eval start cont D S ρ 0 [s ++ t] v
  | param {S ρ p v} : ρ p = some v → Eval start cont D S ρ 12 [p] v
  | object {S ρ x body v} : IsIdent start cont x → x ≠ c!"__VA_ARGS__" → ρ x = none → x ∉ S → D x = some (.var body) →
      Eval start cont D (x :: S) (fun _ => none) 0 body v → Eval start cont D S ρ 0 [x] v
  | call {S ρ f params body args vs v} : IsIdent start cont f → f ≠ c!"__VA_ARGS__" → ρ f = none → f ∉ S →
      D f = some (.fn params body) → (∀ p ∈ params, IsIdent start cont p) → args ≠ [] → args.length = params.length →
      vs.length = params.length → (∀ (i : Nat) a u, args[i]? = some a → vs[i]? = some u → Eval start cont D S ρ 12 a u) →
      Eval start cont D (f :: S) (bindParams params vs) 0 body v →
      Eval start cont D S ρ 0 (f :: c!"(" :: (commaWords args ++ [c!")"])) v
  | call0 {S ρ f body v} : IsIdent start cont f → f ≠ c!"__VA_ARGS__" → ρ f = none → f ∉ S → D f = some (.fn [] body) →
      Eval start cont D (f :: S) (fun _ => none) 0 body v → Eval start cont D S ρ 0 [f, c!"(", c!")"] v
  | paren {S ρ ss v} : Eval start cont D S ρ 12 ss v → Eval start cont D S ρ 0 (c!"(" :: (ss ++ [c!")"])) v
  | plus {S ρ ss v} : Eval start cont D S ρ 2 ss v → Eval start cont D S ρ 2 (c!"+" :: ss) v
  | neg {S ρ ss v} : Eval start cont D S ρ 2 ss v → I128 (-v) → Eval start cont D S ρ 2 (c!"-" :: ss) (-v)
  | bin {S ρ ℓ p op ss us a b v} : (ℓ + 1, p, op) ∈ binaryOps → Eval start cont D S ρ (ℓ + 1) ss a → Eval start cont D S ρ ℓ us b →
      BinValue op a b v → I128 v → Eval start cont D S ρ (ℓ + 1) (ss ++ p :: us) v
  | up {S ρ ℓ ss v} : Eval start cont D S ρ ℓ ss v → ℓ < 12 → Eval start cont D S ρ (ℓ + 1) ss v

end CMacro.Spec
