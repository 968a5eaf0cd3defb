import Verif.Spec.CTypes
import Verif.Model.Ast

/-!
# The expression grammar of C

C11, section 6.5, as a relation between token sequences and trees.  The levels:

| level | C11 | |
|---|---|---|
| 0 | 6.5.1, 6.5.2 | names, literals, parentheses, calls, indices, members, `sizeof(type)` |
| 1 | 6.5.2 | postfix `++` and `--` |
| 2 | 6.5.3, 6.5.4 | prefix operators, casts |
| 3 … 7 | 6.5.5 … 6.5.9 | `* / %`, `+ -`, `<< >>`, `< <= > >=`, `== !=` |
| 8, 9, 10 | 6.5.10 … 6.5.12 | `&`, `^`, `\|` |
| 11 | 6.5.15 | `? :` |
| 12 | 6.5.16 | assignment |

Left out: `&&` and `||` (property C36), the comma operator, `sizeof` of an expression, compound
literals, `_Generic`; another postfix operator after postfix `++` or `--`; calls of anything but
a name.  A name alone in parentheses is left out because `(x) - 1` is a cast if `x` names a type
and a subtraction if not (property C40).
-/

namespace CMacro.Spec

/-- C11, 6.4.1, and `bool`. -/
def cKeywords : List Str :=
  [c!"auto", c!"break", c!"case", c!"char", c!"const", c!"continue", c!"default", c!"do", c!"double", c!"else",
   c!"enum", c!"extern", c!"float", c!"for", c!"goto", c!"if", c!"inline", c!"int", c!"long", c!"register",
   c!"restrict", c!"return", c!"short", c!"signed", c!"sizeof", c!"static", c!"struct", c!"switch", c!"typedef",
   c!"union", c!"unsigned", c!"void", c!"volatile", c!"while", c!"bool", c!"_Alignas", c!"_Alignof", c!"_Atomic",
   c!"_Bool", c!"_Complex", c!"_Generic", c!"_Imaginary", c!"_Noreturn", c!"_Static_assert", c!"_Thread_local"]

/-- A name: an identifier that is not a keyword, or a macro parameter. -/
inductive Name : MacroToken → IdentExpr → Prop
  | ident {x : Str} : x ∉ cKeywords → Name (.ident x) (.plain x)
  | arg {i : Nat} : Name (.arg i) (.arg i)

/-- Types as written in casts and in `sizeof`. -/
inductive TypeName : List MacroToken → Ty → Prop
  | int {ws : List Str} {t : BuiltInType} : Denotes ws t → SignFirst ws → ¬ SignAlone ws →
      TypeName (ws.map .ident) (.builtIn t)
  | void : TypeName [.ident c!"void"] (.builtIn .void)
  | bool : TypeName [.ident c!"bool"] (.builtIn .bool)
  | float : TypeName [.ident c!"float"] (.builtIn .float)
  | double : TypeName [.ident c!"double"] (.builtIn .double)
  | ptr {ts : List MacroToken} {t : Ty} : TypeName ts t → TypeName (ts ++ [.punct c!"*"]) (.ptr t)

/-- The left associative binary operators: level, spelling, operator. -/
def binaryOps : List (Nat × Str × BinOp) :=
  [(3, c!"*", .mul), (3, c!"/", .div), (3, c!"%", .rem),
   (4, c!"+", .add), (4, c!"-", .sub),
   (5, c!"<<", .shl), (5, c!">>", .shr),
   (6, c!"<", .lt), (6, c!"<=", .lte), (6, c!">", .gt), (6, c!">=", .gte),
   (7, c!"==", .eq), (7, c!"!=", .neq),
   (8, c!"&", .bitAnd), (9, c!"^", .bitXor), (10, c!"|", .bitOr)]

/-- The assignment operators. -/
def assignOps : List (Str × BinOp) :=
  [(c!"=", .assign), (c!"+=", .addAssign), (c!"-=", .subAssign), (c!"*=", .mulAssign), (c!"/=", .divAssign),
   (c!"%=", .remAssign), (c!"<<=", .shlAssign), (c!">>=", .shrAssign), (c!"&=", .bitAndAssign),
   (c!"^=", .bitXorAssign), (c!"|=", .bitOrAssign)]

/-- The prefix operators. -/
def prefixOps : List (Str × UnOp) :=
  [(c!"*", .deref), (c!"&", .addrOf), (c!"++", .inc), (c!"--", .dec), (c!"+", .plus), (c!"-", .minus), (c!"!", .not),
   (c!"~", .comp)]

mutual

/-- `Gram ℓ ts e`: the tokens are an expression of the level, and `e` is its tree. -/
inductive Gram : Nat → List MacroToken → Expr → Prop
  | name {t n} : Name t n → Gram 0 [t] (.var n)
  | lit {l} : Gram 0 [.lit l] (.lit l)
  | paren {ts e} : Gram 12 ts e → (∀ t n, Name t n → ts ≠ [t]) → Gram 0 (.punct c!"(" :: (ts ++ [.punct c!")"])) e
  | sizeOf {ts t} : TypeName ts t → Gram 0 (.ident c!"sizeof" :: .punct c!"(" :: (ts ++ [.punct c!")"])) (.sizeOf t)
  | call {t n ts es} : Name t n → Args ts es → Gram 0 (t :: .punct c!"(" :: (ts ++ [.punct c!")"])) (.call n es)
  | index {ts e us i} : Gram 0 ts e → Gram 12 us i →
      Gram 0 (ts ++ .punct c!"[" :: (us ++ [.punct c!"]"])) (.un .deref (.bin e .add i))
  | member {ts e t n} : Gram 0 ts e → Name t n → Gram 0 (ts ++ [.punct c!".", t]) (.bin e .memberAccess (.var n))
  | arrow {ts e t n} : Gram 0 ts e → Name t n →
      Gram 0 (ts ++ [.punct c!"->", t]) (.bin (.un .deref e) .memberAccess (.var n))
  | postInc {ts e} : Gram 0 ts e → Gram 1 (ts ++ [.punct c!"++"]) (.un .postInc e)
  | postDec {ts e} : Gram 0 ts e → Gram 1 (ts ++ [.punct c!"--"]) (.un .postDec e)
  | pre {p op ts e} : (p, op) ∈ prefixOps → Gram 2 ts e → Gram 2 (.punct p :: ts) (.un op e)
  | cast {us t ts e} : TypeName us t → Gram 2 ts e → Gram 2 (.punct c!"(" :: (us ++ .punct c!")" :: ts)) (.cast t e)
  | bin {ℓ p op ts a us b} : (ℓ + 1, p, op) ∈ binaryOps → Gram (ℓ + 1) ts a → Gram ℓ us b →
      Gram (ℓ + 1) (ts ++ .punct p :: us) (.bin a op b)
  | cond {ts c us a vs b} : Gram 10 ts c → Gram 12 us a → Gram 11 vs b →
      Gram 11 (ts ++ .punct c!"?" :: (us ++ .punct c!":" :: vs)) (.ternary c a b)
  | assign {p op ts a us b} : (p, op) ∈ assignOps → Gram 2 ts a → Gram 12 us b →
      Gram 12 (ts ++ .punct p :: us) (.bin a op b)
  | up {ℓ ts e} : Gram ℓ ts e → ℓ < 12 → Gram (ℓ + 1) ts e

/-- The arguments of a call, separated by commas. -/
inductive Args : List MacroToken → List Expr → Prop
  | none : Args [] []
  | one {ts e} : Gram 12 ts e → Args ts [e]
  | more {ts e us a es} : Gram 12 ts e → Args us (a :: es) → Args (ts ++ .punct c!"," :: us) (e :: a :: es)

end

end CMacro.Spec

namespace CMacro.Spec

/-! ## Writing trees with the fewest parentheses -/

/-- The level and spelling of a binary operator. -/
def binName (op : BinOp) : Option (Nat × Str) := (binaryOps.find? (·.2.2 = op)).map fun x => (x.1, x.2.1)

/-- The spelling of an assignment operator. -/
def assignName (op : BinOp) : Option Str := (assignOps.find? (·.2 = op)).map (·.1)

/-- The spelling of a prefix operator. -/
def prefixName (op : UnOp) : Option Str := (prefixOps.find? (·.2 = op)).map (·.1)

/-- Trees of operators over names and literals. -/
def OpTree : Expr → Prop
  | .var (.plain x) => x ∉ cKeywords
  | .var (.arg _) => True
  | .lit _ => True
  | .un _ e => OpTree e
  | .bin a op b => op ≠ .and ∧ op ≠ .or ∧ op ≠ .memberAccess ∧ OpTree a ∧ OpTree b
  | .ternary c a b => OpTree c ∧ OpTree a ∧ OpTree b
  | _ => False

/-- The level of the outermost operator. -/
def level : Expr → Nat
  | .un op _ => if op = .postInc ∨ op = .postDec then 1 else 2
  | .bin _ op _ => match binName op with
    | some (ℓ, _) => ℓ
    | none => 12
  | .ternary _ _ _ => 11
  | _ => 0

/-- Parentheses where an operand of at most level `n` is expected and the operand's level is higher. -/
def wrap (n ℓ : Nat) (ts : List MacroToken) : List MacroToken :=
  if ℓ ≤ n then ts else .punct c!"(" :: (ts ++ [.punct c!")"])

/-- A tree as tokens: an operand is put in parentheses only if its level is too high for its
place, which is one level lower on the right of a left associative operator. -/
def write : Expr → List MacroToken
  | .var (.plain x) => [.ident x]
  | .var (.arg i) => [.arg i]
  | .lit l => [.lit l]
  | .un .postInc e => wrap 0 (level e) (write e) ++ [.punct c!"++"]
  | .un .postDec e => wrap 0 (level e) (write e) ++ [.punct c!"--"]
  | .un op e => .punct ((prefixName op).getD []) :: wrap 2 (level e) (write e)
  | .bin a op b => match binName op with
    | some (ℓ, p) => wrap ℓ (level a) (write a) ++ .punct p :: wrap (ℓ - 1) (level b) (write b)
    | none => wrap 2 (level a) (write a) ++ .punct ((assignName op).getD []) :: wrap 12 (level b) (write b)
  | .ternary c a b => wrap 10 (level c) (write c) ++ .punct c!"?" ::
      (wrap 12 (level a) (write a) ++ .punct c!":" :: wrap 11 (level b) (write b))
  | _ => []

end CMacro.Spec
