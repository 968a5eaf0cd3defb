/-!
# Basic vocabulary of the model

Strings, external parameters, outcomes (errors, panics, divergence), and the
nom 7 parser combinators used by the crate.
-/

namespace CMacro

/-- Rust `str`/`String`/`Cow<str>`: a sequence of Unicode scalar values.
(Used everywhere in /repo/src; borrowing is erased.) -/
abbrev Str := List Char

/-- `c!"abc"` is the character list `['a', 'b', 'c']`; pure notation, also usable
as a pattern. -/
macro:max "c!" s:str : term => do
  let cs := s.getString.toList.map fun c => Lean.Syntax.mkCharLit c
  `([$(cs.toArray),*])

/-- External functions the crate calls:
* `xidStart`, `xidContinue`: `unicode_ident::is_xid_start/continue`
  (/repo/src/ast/identifier.rs:19,26,49,59,107,114; /repo/src/macro_set/mod.rs:305);
* `debugFmt`: `format!("{s:?}")` on a string (/repo/src/macro_set/mod.rs:377). -/
structure Env where
  xidStart : Char → Bool
  xidContinue : Char → Bool
  debugFmt : Str → Str

/-- Facts about the Unicode tables that some theorems assume: on ASCII they are
letters / letters, digits, underscore; and every start character continues
(/repo/src/ast/identifier.rs:19,26,49 and /repo/src/macro_set/mod.rs:305). -/
structure Env.Lawful (E : Env) : Prop where
  startAscii : ∀ c : Char, c.toNat < 128 → E.xidStart c = c.isAlpha
  contAscii : ∀ c : Char, c.toNat < 128 → E.xidContinue c = (c.isAlphanum || c == '_')
  startCont : ∀ c : Char, E.xidStart c = true → E.xidContinue c = true

/-- The environment that knows only ASCII; used in concrete examples.  Its
`debugFmt` is `format!("{:?}")` restricted to strings of printable ASCII
(/repo/src/ast/identifier.rs:19,26; /repo/src/macro_set/mod.rs:377). -/
def asciiEnv : Env where
  xidStart c := c.isAlpha
  xidContinue c := c.isAlphanum || c == '_'
  debugFmt s := '"' :: s.flatMap (fun c => if c = '"' ∨ c = '\\' then ['\\', c] else [c]) ++ ['"']

/-- /repo/src/macro_set/mod.rs:59-87, `ExpansionError`. -/
inductive ExpansionError
  | macroNotFound
  | invalidToken (s : Str)
  | fnMacroArgument (name : Str) (required given : Nat)
  | concatBegin
  | concatEnd
  | nonVariadicVarArgs
  | nonUniqueArgument (s : Str)
  | stringifyNonArgument
  | invalidConcat
  | invalidArgumentName
  deriving DecidableEq, Repr

/-- Places in /repo/src/macro_set/mod.rs that can panic:
* `argIndex`: `args[arg_index]` (line 663);
* `varArgsSlice`: `args[(arg_names.len() - 1)..]` (line 667);
* `concatUnreachable`: `unreachable!()` (line 330);
* `concatUnwrapLit`: `Lit::try_from(..).unwrap()` (line 293);
* `concatUnwrapIdent`: `Identifier::try_from(..).unwrap()` (line 307);
* `detokVarArgs`: `arg_names.len() - 1` (line 237). -/
inductive PanicSite
  | argIndex
  | varArgsSlice
  | concatUnreachable
  | concatUnwrapLit
  | concatUnwrapIdent
  | detokVarArgs
  deriving DecidableEq, Repr

/-- How a call into `MacroSet` can fail: a Rust error value, a panic, or (fuel
exhausted) a computation that has not finished yet
(/repo/src/macro_set/mod.rs:59-87 and the places listed for `PanicSite`; recursion at 464, 474). -/
inductive Fail
  | err (e : ExpansionError)
  | panic (p : PanicSite)
  | diverge
  deriving DecidableEq, Repr

/-- Result of a call into `MacroSet` (/repo/src/macro_set/mod.rs:436,492,516,646,782,834). -/
abbrev Res (α : Type) := Except Fail α

instance instDecEqExcept {ε α : Type} [DecidableEq ε] [DecidableEq α] : DecidableEq (Except ε α)
  | .ok a, .ok b => if h : a = b then isTrue (h ▸ rfl) else isFalse (fun h' => h (Except.ok.inj h'))
  | .error a, .error b => if h : a = b then isTrue (h ▸ rfl) else isFalse (fun h' => h (Except.error.inj h'))
  | .ok _, .error _ => isFalse (fun h => nomatch h)
  | .error _, .ok _ => isFalse (fun h => nomatch h)

/-! ## nom 7 combinators

`Parser σ α` models `Fn(&[σ]) -> IResult<&[σ], α>`; every failure in the crate is
a recoverable `Err::Error`, hence `none`. -/

/-- A parser on a list of items (/repo/src/ast/identifier.rs:44; /repo/src/ast/expr.rs:338). -/
abbrev Parser (σ α : Type) := List σ → Option (α × List σ)

namespace Parser
variable {σ α β : Type}

/-- nom `combinator::map` (/repo/src/ast/literal.rs:63). -/
def map (p : Parser σ α) (f : α → β) : Parser σ β := fun i =>
  match p i with
  | some (a, r) => some (f a, r)
  | none => none

/-- nom `combinator::map_opt` (also `map_res`)
(/repo/src/ast/identifier.rs:54; `map_res`: /repo/src/ast/literal/string.rs:177). -/
def mapOpt (p : Parser σ α) (f : α → Option β) : Parser σ β := fun i =>
  match p i with
  | some (a, r) => match f a with
    | some b => some (b, r)
    | none => none
  | none => none

/-- nom `branch::alt` for two branches (/repo/src/ast/identifier.rs:45). -/
def or (p q : Parser σ α) : Parser σ α := fun i =>
  match p i with
  | some x => some x
  | none => q i

/-- nom `sequence::pair` (/repo/src/ast/identifier.rs:47). -/
def seq (p : Parser σ α) (q : Parser σ β) : Parser σ (α × β) := fun i =>
  match p i with
  | some (a, r) => match q r with
    | some (b, r') => some ((a, b), r')
    | none => none
  | none => none

/-- nom `sequence::preceded` (/repo/src/ast/identifier.rs:54). -/
def preceded (p : Parser σ α) (q : Parser σ β) : Parser σ β := map (seq p q) (·.2)

/-- nom `sequence::terminated` (/repo/src/fn_macro.rs:111). -/
def terminated (p : Parser σ α) (q : Parser σ β) : Parser σ α := map (seq p q) (·.1)

/-- nom `sequence::delimited` (/repo/src/ast/comment.rs:19). -/
def delimited {γ : Type} (p : Parser σ α) (q : Parser σ β) (r : Parser σ γ) : Parser σ β :=
  terminated (preceded p q) r

/-- nom `combinator::opt` (/repo/src/fn_macro.rs:120). -/
def opt (p : Parser σ α) : Parser σ (Option α) := fun i =>
  match p i with
  | some (a, r) => some (some a, r)
  | none => some (none, i)

/-- nom `combinator::eof` (/repo/src/ast/literal/int.rs:104). -/
def eof : Parser σ Unit := fun i => if i.isEmpty then some ((), []) else none

/-- nom `combinator::all_consuming` (/repo/src/ast/identifier.rs:88). -/
def allConsuming (p : Parser σ α) : Parser σ α := fun i =>
  match p i with
  | some (a, []) => some (a, [])
  | _ => none

/-- Body of nom `multi::many0`: stop at the first failure; a success that consumes
nothing is an error.  Fuel `n`: more than the number of items in the input is
always enough because each round must consume an item (/repo/src/ast/identifier.rs:49). -/
def many0F (p : Parser σ α) : Nat → Parser σ (List α)
  | 0, _ => none
  | n + 1, i => match p i with
    | none => some ([], i)
    | some (a, r) => if r.length = i.length then none else
      match many0F p n r with
      | some (as, r') => some (a :: as, r')
      | none => none

/-- nom `multi::many0` / `multi::fold_many0` (the fold is applied to the list)
(/repo/src/ast/identifier.rs:49,58). -/
def many0 (p : Parser σ α) : Parser σ (List α) := fun i => many0F p (i.length + 1) i

/-- nom `multi::many1` / `multi::fold_many1`: at least one
(/repo/src/ast/identifier.rs:107,113). -/
def many1 (p : Parser σ α) : Parser σ (List α) := fun i =>
  match many0 p i with
  | some ([], _) => none
  | r => r

/-- nom `multi::fold_many_m_n(m, n, ..)`: up to `n` items, failing if fewer than `m`.
`k` counts the items parsed so far (/repo/src/ast/literal.rs:151,160,180,190). -/
def manyMN (m : Nat) (p : Parser σ α) : Nat → Nat → Parser σ (List α)
  | 0, k, i => if k < m then none else some ([], i)
  | n + 1, k, i => match p i with
    | none => if k < m then none else some ([], i)
    | some (a, r) => match manyMN m p n (k + 1) r with
      | some (as, r') => some (a :: as, r')
      | none => none

/-- nom `character::complete::satisfy` / `anychar` + `verify`
(/repo/src/ast/identifier.rs:48; `verify`: /repo/src/ast/identifier.rs:59). -/
def satisfy (f : σ → Bool) : Parser σ σ
  | [] => none
  | c :: r => if f c then some (c, r) else none

/-- nom `bytes::complete::tag` on characters (/repo/src/ast/literal/char.rs:35). -/
def tag [DecidableEq σ] : List σ → Parser σ Unit
  | [], i => some ((), i)
  | _ :: _, [] => none
  | t :: ts, c :: r => if t = c then tag ts r else none

/-- nom `take_while1`-like parsers (`digit1`, `hex_digit1`, `oct_digit1`, `is_a`,
`is_not`): the longest non-empty prefix satisfying `f`
(/repo/src/ast/literal/int.rs:122; /repo/src/ast/literal/string.rs:85). -/
def takeWhile1 (f : σ → Bool) : Parser σ (List σ) := fun i =>
  if (i.takeWhile f).isEmpty then none else some (i.takeWhile f, i.dropWhile f)

end Parser

/-- nom `tag_no_case` for an ASCII letter or digit: matches either case.  (nom
compares `char::to_lowercase`; no non-ASCII character lowercases to one of the
single letters `0 x b u l z f e` used by the crate.)
(/repo/src/ast/literal/int.rs:122; /repo/src/ast/literal/float.rs:33,74). -/
def tagNoCase : Str → Parser Char Unit
  | [], i => some ((), i)
  | _ :: _, [] => none
  | t :: ts, c :: r => if t.toLower = c.toLower then tagNoCase ts r else none

/-- `char::to_digit(base)` for `base ≤ 16`
(/repo/src/ast/literal/int.rs:80; /repo/src/ast/literal.rs:154,163,183,193). -/
def toDigit (base : Nat) (c : Char) : Option Nat :=
  let v : Option Nat :=
    if '0' ≤ c ∧ c ≤ '9' then some (c.toNat - 48)
    else if 'a' ≤ c ∧ c ≤ 'f' then some (c.toNat - 87)
    else if 'A' ≤ c ∧ c ≤ 'F' then some (c.toNat - 55)
    else none
  match v with
  | some d => if d < base then some d else none
  | none => none

/-- `char::is_digit(base)`; nom's `digit1`, `hex_digit1`, `oct_digit1` use it with
10, 16, 8 (/repo/src/ast/literal/int.rs:122; /repo/src/ast/literal.rs:154). -/
def isDigit (base : Nat) (c : Char) : Bool := (toDigit base c).isSome

/-- `char::is_whitespace` (the Unicode `White_Space` property), used by `str::trim`
(/repo/src/macro_set/mod.rs:115). -/
def isWs (c : Char) : Bool :=
  let n := c.toNat
  (9 ≤ n && n ≤ 13) || n = 32 || n = 0x85 || n = 0xA0 || n = 0x1680 ||
  (0x2000 ≤ n && n ≤ 0x200A) || n = 0x2028 || n = 0x2029 || n = 0x202F || n = 0x205F || n = 0x3000

/-- `str::trim` (/repo/src/macro_set/mod.rs:115; /repo/src/ast/asm.rs:105). -/
def trim (s : Str) : Str := ((s.dropWhile isWs).reverse.dropWhile isWs).reverse

end CMacro
