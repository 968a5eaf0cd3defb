import Verif.Spec.Trees
import Verif.Spec.CInt

/-!
# The value of a text with macros

What an integer constant written with macros is worth, without replacing text and without trees: a macro is a value, and a macro with
parameters is a function of the values of its arguments.
-/

namespace CMacro.Spec

/-- `Worth E D W wrap S ρ ℓ t v ws`: the words are an expression of the level `ℓ` (as in `Gram`), of the type `t` and the value `v`.  `D`
are the definitions, `S` are the macros whose definition is being read, and `ρ` gives level, type and value of the parameters. -/
inductive Worth (E : Env) (D : Table) (W : Widths) (wrap : Prop) :
    List Str → (Str → Option (Nat × IntTy × Int)) → Nat → IntTy → Int → List Str → Prop
  /- parameters and macros -/
  | param {S ρ p ℓ t v} : ρ p = some (ℓ, t, v) → Worth E D W wrap S ρ ℓ t v [p]
  | object {S ρ x body ℓ t v} : IsMacro E S ρ x → D x = some (.var body) →
      Worth E D W wrap (x :: S) (fun _ => none) ℓ t v body → Worth E D W wrap S ρ ℓ t v [x]
  | macroCall {S ρ f params body args vals ℓ t v} : IsMacro E S ρ f → D f = some (.fn params body) →
      (∀ p ∈ params, IsIdent E.xidStart E.xidContinue p) → args ≠ [] → args.length = params.length → vals.length = params.length →
      (∀ (i : Nat) a A, args[i]? = some a → vals[i]? = some A → Worth E D W wrap S ρ A.1 A.2.1 A.2.2 a) →
      Worth E D W wrap (f :: S) (bindNodes params vals) ℓ t v body →
      Worth E D W wrap S ρ ℓ t v (f :: c!"(" :: (commaWords args ++ [c!")"]))
  | macroCall0 {S ρ f body ℓ t v} : IsMacro E S ρ f → D f = some (.fn [] body) →
      Worth E D W wrap (f :: S) (fun _ => none) ℓ t v body → Worth E D W wrap S ρ ℓ t v [f, c!"(", c!")"]
  /- expressions -/
  | lit {S ρ s n t} : CToken E s (.lit (.int n)) → ConstTy W n t → Worth E D W wrap S ρ 0 t n.value.toInt [s]
  | paren {S ρ t v ws} : Worth E D W wrap S ρ 12 t v ws → Worth E D W wrap S ρ 0 t v (c!"(" :: (ws ++ [c!")"]))
  | plus {S ρ t v ws} : Worth E D W wrap S ρ 2 t v ws → Worth E D W wrap S ρ 2 t v (c!"+" :: ws)
  | neg {S ρ t v v' ws} : Worth E D W wrap S ρ 2 t v ws → Wraps W wrap t (-v) v' → Worth E D W wrap S ρ 2 t v' (c!"-" :: ws)
  | bin {S ρ ℓ p op s t a b a' b' v v' ws us} : (ℓ + 1, p, op) ∈ binaryOps → arithmetic op = true →
      Worth E D W wrap S ρ (ℓ + 1) s a ws → Worth E D W wrap S ρ ℓ t b us →
      Wraps W wrap (common W s t) a a' → Wraps W wrap (common W s t) b b' → BinValue op a' b' v → Wraps W wrap (common W s t) v v' →
      Worth E D W wrap S ρ (ℓ + 1) (common W s t) v' (ws ++ p :: us)
  | shl {S ρ s t a v' ws us} {k : Nat} : Worth E D W wrap S ρ 5 s a ws → Worth E D W wrap S ρ 4 t k us → k < s.width W → 0 ≤ a →
      Wraps W wrap s (a * 2 ^ k) v' → Worth E D W wrap S ρ 5 s v' (ws ++ c!"<<" :: us)
  | shr {S ρ s t a ws us} {k : Nat} : Worth E D W wrap S ρ 5 s a ws → Worth E D W wrap S ρ 4 t k us → k < s.width W → 0 ≤ a →
      Worth E D W wrap S ρ 5 s (a / 2 ^ k) (ws ++ c!">>" :: us)
  | up {S ρ ℓ t v ws} : Worth E D W wrap S ρ ℓ t v ws → ℓ < 12 → Worth E D W wrap S ρ (ℓ + 1) t v ws

end CMacro.Spec
