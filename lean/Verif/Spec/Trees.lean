import Verif.Spec.Grammar
import Verif.Spec.Eval
import Verif.Props.CText

/-!
# The tree of a text with macros

The expression that a text with macros denotes, without replacing text: a name stands for the tree of its definition, a call stands
for the tree of the definition with the trees of the arguments in place of the parameters.  The grammar is that of C (`Gram`).
-/

namespace CMacro.Spec

/-- What a piece of text is: an expression of a level (levels as in `Gram`), or a type. -/
inductive Node
  | expr (ℓ : Nat) (e : Expr)
  | type (t : Ty)

/-- What the parameters stand for. -/
def bindNodes {α : Type} (params : List Str) (Ns : List α) (p : Str) : Option α := (paramIndex params p).bind (Ns[·]?)

/-- A word of C that stays as it is: no parameter, and no macro, or the macro whose definition is being read. -/
def Stays (E : Env) (D : Table) (S : List Str) (ρ : Str → Option Node) (x : Str) : Prop :=
  IsIdent E.xidStart E.xidContinue x ∧ x ≠ c!"__VA_ARGS__" ∧ ρ x = none ∧ (D x = none ∨ x ∈ S)

/-- A word that is a macro, but not one whose definition is being read. -/
def IsMacro {α : Type} (E : Env) (S : List Str) (ρ : Str → Option α) (x : Str) : Prop :=
  IsIdent E.xidStart E.xidContinue x ∧ x ≠ c!"__VA_ARGS__" ∧ ρ x = none ∧ x ∉ S

/-- `Stands E D S ρ N ws`: the words are `N`; `D` are the definitions, `S` are the macros whose definition is being read, and `ρ` is
what the parameters stand for.  Names, calls of macros and parameters have the level of what they stand for, so that
`#define SUM(a, b) a + b` may not be an operand of `*`, and `a` may not be `x = 1` in it.  An expression in parentheses may not be a
name alone, as in `Gram`. -/
inductive Stands (E : Env) (D : Table) : List Str → (Str → Option Node) → Node → List Str → Prop
  /- names, parameters and macros -/
  | name {S ρ x} : Stays E D S ρ x → x ∉ cKeywords → Stands E D S ρ (.expr 0 (.var (.plain x))) [x]
  | param {S ρ p N} : ρ p = some N → Stands E D S ρ N [p]
  | object {S ρ x body N} : IsMacro E S ρ x → D x = some (.var body) →
      Stands E D (x :: S) (fun _ => none) N body → Stands E D S ρ N [x]
  | macroCall {S ρ f params body args Ns N} : IsMacro E S ρ f → D f = some (.fn params body) →
      (∀ p ∈ params, IsIdent E.xidStart E.xidContinue p) → args ≠ [] → args.length = params.length → Ns.length = params.length →
      (∀ (i : Nat) a A, args[i]? = some a → Ns[i]? = some A → Stands E D S ρ A a) →
      Stands E D (f :: S) (bindNodes params Ns) N body → Stands E D S ρ N (f :: c!"(" :: (commaWords args ++ [c!")"]))
  | macroCall0 {S ρ f body N} : IsMacro E S ρ f → D f = some (.fn [] body) →
      Stands E D (f :: S) (fun _ => none) N body → Stands E D S ρ N [f, c!"(", c!")"]
  /- types -/
  | type {S ρ ws t} : (∀ w ∈ ws, Stays E D S ρ w) → TypeName (ws.map .ident) t → Stands E D S ρ (.type t) ws
  | ptr {S ρ ws t} : Stands E D S ρ (.type t) ws → Stands E D S ρ (.type (.ptr t)) (ws ++ [c!"*"])
  /- expressions -/
  | lit {S ρ s l} : CToken E s (.lit l) → Stands E D S ρ (.expr 0 (.lit l)) [s]
  | paren {S ρ ws e} : Stands E D S ρ (.expr 12 e) ws → (∀ n, e ≠ .var n) → Stands E D S ρ (.expr 0 e) (c!"(" :: (ws ++ [c!")"]))
  | sizeOf {S ρ ws t} : Stays E D S ρ c!"sizeof" → Stands E D S ρ (.type t) ws →
      Stands E D S ρ (.expr 0 (.sizeOf t)) (c!"sizeof" :: c!"(" :: (ws ++ [c!")"]))
  | call {S ρ ws n args es} : Stands E D S ρ (.expr 0 (.var n)) ws → args.length = es.length →
      (∀ (i : Nat) a e, args[i]? = some a → es[i]? = some e → Stands E D S ρ (.expr 12 e) a) →
      Stands E D S ρ (.expr 0 (.call n es)) (ws ++ c!"(" :: (commaWords args ++ [c!")"]))
  | index {S ρ ws e us i} : Stands E D S ρ (.expr 0 e) ws → Stands E D S ρ (.expr 12 i) us →
      Stands E D S ρ (.expr 0 (.un .deref (.bin e .add i))) (ws ++ c!"[" :: (us ++ [c!"]"]))
  | member {S ρ ws e us n} : Stands E D S ρ (.expr 0 e) ws → Stands E D S ρ (.expr 0 (.var n)) us →
      Stands E D S ρ (.expr 0 (.bin e .memberAccess (.var n))) (ws ++ c!"." :: us)
  | arrow {S ρ ws e us n} : Stands E D S ρ (.expr 0 e) ws → Stands E D S ρ (.expr 0 (.var n)) us →
      Stands E D S ρ (.expr 0 (.bin (.un .deref e) .memberAccess (.var n))) (ws ++ c!"->" :: us)
  | postInc {S ρ ws e} : Stands E D S ρ (.expr 0 e) ws → Stands E D S ρ (.expr 1 (.un .postInc e)) (ws ++ [c!"++"])
  | postDec {S ρ ws e} : Stands E D S ρ (.expr 0 e) ws → Stands E D S ρ (.expr 1 (.un .postDec e)) (ws ++ [c!"--"])
  | pre {S ρ p op ws e} : (p, op) ∈ prefixOps → Stands E D S ρ (.expr 2 e) ws → Stands E D S ρ (.expr 2 (.un op e)) (p :: ws)
  | cast {S ρ us t ws e} : Stands E D S ρ (.type t) us → Stands E D S ρ (.expr 2 e) ws →
      Stands E D S ρ (.expr 2 (.cast t e)) (c!"(" :: (us ++ c!")" :: ws))
  | bin {S ρ ℓ p op ws a us b} : (ℓ + 1, p, op) ∈ binaryOps → Stands E D S ρ (.expr (ℓ + 1) a) ws → Stands E D S ρ (.expr ℓ b) us →
      Stands E D S ρ (.expr (ℓ + 1) (.bin a op b)) (ws ++ p :: us)
  | cond {S ρ ws c us a vs b} : Stands E D S ρ (.expr 10 c) ws → Stands E D S ρ (.expr 12 a) us → Stands E D S ρ (.expr 11 b) vs →
      Stands E D S ρ (.expr 11 (.ternary c a b)) (ws ++ c!"?" :: (us ++ c!":" :: vs))
  | assign {S ρ p op ws a us b} : (p, op) ∈ assignOps → Stands E D S ρ (.expr 2 a) ws → Stands E D S ρ (.expr 12 b) us →
      Stands E D S ρ (.expr 12 (.bin a op b)) (ws ++ p :: us)
  | up {S ρ ℓ ws e} : Stands E D S ρ (.expr ℓ e) ws → ℓ < 12 → Stands E D S ρ (.expr (ℓ + 1) e) ws

end CMacro.Spec
