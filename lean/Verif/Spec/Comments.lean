import Verif.Spec.Grammar

/-!
# Comments in expressions

C11, 5.1.1.2, translation phase 3: each comment is replaced by one space, so a token sequence
means what it means without its comments.  `GramC` is the grammar `Gram` with comments in the
places where the tool reads them: inside parentheses and brackets, around binary operators,
assignment operators, `?`, `:`, `.`, `->` and commas, after prefix operators, before postfix
operators.  Not inside a type, not between a cast and its operand, not between `sizeof` and its
parenthesis, not at the end.
-/

namespace CMacro.Spec

/-- Is a comment. -/
def isRemark : MacroToken → Bool
  | .comment _ => true
  | _ => false

/-- The tokens without the comments. -/
def uncomment (ts : List MacroToken) : List MacroToken := ts.filter fun t => !isRemark t

/-- Nothing but comments. -/
def Comments (cs : List MacroToken) : Prop := ∀ t ∈ cs, isRemark t = true

mutual

/-- `GramC ℓ ts e`: without its comments, the tokens are an expression of the level. -/
inductive GramC : Nat → List MacroToken → Expr → Prop
  | name {t n} : Name t n → GramC 0 [t] (.var n)
  | lit {l} : GramC 0 [.lit l] (.lit l)
  | paren {cs ts ds e} : Comments cs → GramC 12 ts e → Comments ds → (∀ t n, Name t n → ts ≠ [t]) →
      GramC 0 (.punct c!"(" :: (cs ++ (ts ++ (ds ++ [.punct c!")"])))) e
  | sizeOf {cs ts ds t} : Comments cs → TypeName ts t → Comments ds →
      GramC 0 (.ident c!"sizeof" :: .punct c!"(" :: (cs ++ (ts ++ (ds ++ [.punct c!")"])))) (.sizeOf t)
  | call {t n bs cs ts ds es} : Name t n → Comments bs → Comments cs → ArgsC ts es → Comments ds →
      GramC 0 (t :: (bs ++ .punct c!"(" :: (cs ++ (ts ++ (ds ++ [.punct c!")"]))))) (.call n es)
  | index {ts e bs cs us ds i} : GramC 0 ts e → Comments bs → Comments cs → GramC 12 us i → Comments ds →
      GramC 0 (ts ++ (bs ++ .punct c!"[" :: (cs ++ (us ++ (ds ++ [.punct c!"]"]))))) (.un .deref (.bin e .add i))
  | member {ts e bs cs t n} : GramC 0 ts e → Comments bs → Comments cs → Name t n →
      GramC 0 (ts ++ (bs ++ .punct c!"." :: (cs ++ [t]))) (.bin e .memberAccess (.var n))
  | arrow {ts e bs cs t n} : GramC 0 ts e → Comments bs → Comments cs → Name t n →
      GramC 0 (ts ++ (bs ++ .punct c!"->" :: (cs ++ [t]))) (.bin (.un .deref e) .memberAccess (.var n))
  | postInc {ts e bs} : GramC 0 ts e → Comments bs → GramC 1 (ts ++ (bs ++ [.punct c!"++"])) (.un .postInc e)
  | postDec {ts e bs} : GramC 0 ts e → Comments bs → GramC 1 (ts ++ (bs ++ [.punct c!"--"])) (.un .postDec e)
  | pre {p op cs ts e} : (p, op) ∈ prefixOps → Comments cs → GramC 2 ts e → GramC 2 (.punct p :: (cs ++ ts)) (.un op e)
  | cast {cs us ds t ts e} : Comments cs → TypeName us t → Comments ds → GramC 2 ts e →
      GramC 2 (.punct c!"(" :: (cs ++ (us ++ (ds ++ .punct c!")" :: ts)))) (.cast t e)
  | bin {ℓ p op ts a bs cs us b} : (ℓ + 1, p, op) ∈ binaryOps → GramC (ℓ + 1) ts a → Comments bs → Comments cs → GramC ℓ us b →
      GramC (ℓ + 1) (ts ++ (bs ++ .punct p :: (cs ++ us))) (.bin a op b)
  | cond {ts c b₁ c₁ us a b₂ c₂ vs b} : GramC 10 ts c → Comments b₁ → Comments c₁ → GramC 12 us a → Comments b₂ → Comments c₂ →
      GramC 11 vs b →
      GramC 11 (ts ++ (b₁ ++ .punct c!"?" :: (c₁ ++ (us ++ (b₂ ++ .punct c!":" :: (c₂ ++ vs)))))) (.ternary c a b)
  | assign {p op ts a bs cs us b} : (p, op) ∈ assignOps → GramC 2 ts a → Comments bs → Comments cs → GramC 12 us b →
      GramC 12 (ts ++ (bs ++ .punct p :: (cs ++ us))) (.bin a op b)
  | up {ℓ ts e} : GramC ℓ ts e → ℓ < 12 → GramC (ℓ + 1) ts e

/-- The arguments of a call. -/
inductive ArgsC : List MacroToken → List Expr → Prop
  | none : ArgsC [] []
  | one {ts e} : GramC 12 ts e → ArgsC ts [e]
  | more {ts e bs cs us a es} : GramC 12 ts e → Comments bs → Comments cs → ArgsC us (a :: es) →
      ArgsC (ts ++ (bs ++ .punct c!"," :: (cs ++ us))) (e :: a :: es)

end

end CMacro.Spec
