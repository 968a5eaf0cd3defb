import Verif.Model.Token

/-!
# `MacroSet`

Model of /repo/src/macro_set/mod.rs:422-871: the definition store and macro expansion.
-/

namespace CMacro

/-- `HashMap<String, α>` as an association list (/repo/src/macro_set/mod.rs:53-54). -/
abbrev Map (α : Type) := List (Str × α)

namespace Map
variable {α : Type}

/-- `HashMap::get` (/repo/src/macro_set/mod.rs:451,470,786,841). -/
def get (m : Map α) (k : Str) : Option α := m.lookup k

/-- `HashMap::remove`, the remaining map (the removed value is `get`)
(/repo/src/macro_set/mod.rs:767,773,796,814,825,857). -/
def remove (m : Map α) (k : Str) : Map α := m.filter fun e => e.1 ≠ k

/-- `HashMap::insert` (/repo/src/macro_set/mod.rs:776,828). -/
def insert (m : Map α) (k : Str) (v : α) : Map α := (k, v) :: m.remove k

end Map

/-- `HashSet<&str>`: a duplicate-free list (/repo/src/macro_set/mod.rs:504,571). -/
def setInsert (s : List Str) (n : Str) : List Str := if n ∈ s then s else n :: s

/-- /repo/src/macro_set/mod.rs:52-55, `MacroSet`. -/
structure MacroSet where
  var : Map (List Str)
  fn : Map (List Str × List Str)
  deriving DecidableEq, Repr

namespace MacroSet

/-- /repo/src/macro_set/mod.rs:424-426, `MacroSet::new`. -/
def new : MacroSet := ⟨[], []⟩

/-! ## Definitions -/

/-- `old.zip(new).all(|(a, b)| a == b)` (/repo/src/macro_set/mod.rs:771,817,821). -/
def zipAllEq (a b : List Str) : Bool := (a.zip b).all fun p => p.1 = p.2

/-- `iter().filter(|t| !is_whitespace(t))` (/repo/src/macro_set/mod.rs:768-769,815-820). -/
def significant (ts : List Str) : List Str := ts.filter fun t => !isWhitespace t

/-- /repo/src/macro_set/mod.rs:758-779, `define_var_macro`. -/
def defineVar (ms : MacroSet) (name : Str) (body : List Str) : MacroSet × Bool :=
  match ms.var.get name with
  | some old =>
    let var := ms.var.remove name
    (⟨var.insert name body, ms.fn⟩, !zipAllEq (significant old) (significant body))
  | none =>
    let redefined := (ms.fn.get name).isSome
    (⟨(ms.var.remove name).insert name body, ms.fn.remove name⟩, redefined)

/-- /repo/src/macro_set/mod.rs:795-797, `undefine_var_macro`. -/
def undefineVar (ms : MacroSet) (name : Str) : MacroSet × Bool :=
  (⟨ms.var.remove name, ms.fn⟩, (ms.var.get name).isSome)

/-- /repo/src/macro_set/mod.rs:802-831, `define_fn_macro`. -/
def defineFn (ms : MacroSet) (name : Str) (args body : List Str) : MacroSet × Bool :=
  match ms.fn.get name with
  | some (oldArgs, oldBody) =>
    let fn := ms.fn.remove name
    (⟨ms.var, fn.insert name (args, body)⟩,
      !(zipAllEq (significant oldArgs) (significant args) &&
        zipAllEq (significant oldBody) (significant body)))
  | none =>
    let redefined := (ms.var.get name).isSome
    (⟨ms.var.remove name, (ms.fn.remove name).insert name (args, body)⟩, redefined)

/-- /repo/src/macro_set/mod.rs:856-858, `undefine_fn_macro`. -/
def undefineFn (ms : MacroSet) (name : Str) : MacroSet × Bool :=
  (⟨ms.var, ms.fn.remove name⟩, (ms.fn.get name).isSome)

end MacroSet

/-! ## Expansion -/

/-- The `pop` closure of `collect_args` (/repo/src/macro_set/mod.rs:595-604): the stack
after popping a matching open bracket, `none` for `CollectArgsError`. -/
def popParen (open_ : Char) : List Char → Option (List Char)
  | p :: ps => if p = open_ then some ps else none
  | [] => none

/-- The loop of `collect_args` (/repo/src/macro_set/mod.rs:592-637): `stack` is
`parentheses` (top first), `args` and `cur` are `args` and `current_arg`.  Returns the
arguments and the tokens after the closing parenthesis. -/
def collectArgsGo : List Char → List (List Token) → List Token → List Token →
    Option (List (List Token) × List Token)
  | _, _, _, [] => none
  | stack, args, cur, t :: rest =>
    match t with
    | .punct p =>
      if p = c!"(" then collectArgsGo ('(' :: stack) args (cur ++ [t]) rest
      else if p = c!")" then
        if stack.isEmpty then some (args ++ [cur], rest)
        else match popParen '(' stack with
          | some stack => collectArgsGo stack args (cur ++ [t]) rest
          | none => none
      else if p = c!"[" then collectArgsGo ('[' :: stack) args (cur ++ [t]) rest
      else if p = c!"]" then
        match popParen '[' stack with
        | some stack => collectArgsGo stack args (cur ++ [t]) rest
        | none => none
      else if p = c!"{" then collectArgsGo ('{' :: stack) args (cur ++ [t]) rest
      else if p = c!"}" then
        match popParen '{' stack with
        | some stack => collectArgsGo stack args (cur ++ [t]) rest
        | none => none
      else if p = c!"," ∧ stack.isEmpty then collectArgsGo stack (args ++ [cur]) [] rest
      else collectArgsGo stack args (cur ++ [t]) rest
    | t => collectArgsGo stack args (cur ++ [t]) rest

/-- /repo/src/macro_set/mod.rs:576-638, `collect_args`. -/
def collectArgs : List Token → Option (List (List Token) × List Token)
  | .punct p :: rest => if p = c!"(" then collectArgsGo [] [] [] rest else none
  | _ => none

/-- `until_no_whitespace!(tokens.pop(), ..)` (/repo/src/macro_set/mod.rs:720-734): drop
comments from the end, then take one token.  The list is the reversed output. -/
def popNonComment : List Token → Option (Token × List Token)
  | [] => none
  | .comment _ :: ts => popNonComment ts
  | t :: ts => some (t, ts)

/-- Is the token `MacroArg` or `VarArgs` (/repo/src/macro_set/mod.rs:656,717-718)? -/
def Token.isArg : Token → Bool
  | .macroArg _ => true
  | .varArgs => true
  | _ => false

/-- /repo/src/macro_set/mod.rs:710-749, `expand_concat`; `out` is the output so far in
reverse.  `##` next to a (not yet substituted) argument is left alone.  The fuel
exceeds the number of remaining tokens, each step consumes at least one. -/
def expandConcatGo (E : Env) : Nat → List Token → List Token → Res (List Token)
  | 0, _, _ => .error .diverge
  | _ + 1, out, [] => .ok out.reverse
  | n + 1, out, t :: rest =>
    if t = .punct c!"##" ∧ (out.head?.map Token.isArg).getD false = false ∧
        (rest.head?.map Token.isArg).getD false = false then
      match popNonComment out with
      | none => .error (.err .concatBegin)
      | some (lhs, out') =>
        if rest.head? = some (.punct c!"##") then
          match lhs.concat E .placemarker with
          | .ok t' => expandConcatGo E n (t' :: out') rest
          | .error e => .error e
        else
          match popNonComment rest with
          | none => .error (.err .concatEnd)
          | some (rhs, rest') =>
            match lhs.concat E rhs with
            | .ok t' => expandConcatGo E n (t' :: out') rest'
            | .error e => .error e
    else expandConcatGo E n (t :: out) rest

/-- /repo/src/macro_set/mod.rs:710-749, `expand_concat`. -/
def expandConcat (E : Env) (ts : List Token) : Res (List Token) :=
  expandConcatGo E (ts.length + 1) [] ts

/-- /repo/src/macro_set/mod.rs:751-753, `remove_placemarkers`. -/
def removePlacemarkers (ts : List Token) : List Token := ts.filter fun t => t ≠ .placemarker

/-- Join the variadic arguments with commas (/repo/src/macro_set/mod.rs:665-674). -/
def joinArgs (args : List (List Token)) : List Token :=
  (args.intersperse [.punct c!","]).flatten

/-- The argument denoted by a parameter token (/repo/src/macro_set/mod.rs:662-675). -/
def selectArg (argNames : List Token) (args : List (List Token)) : Token → Res (List Token)
  | .macroArg i => match args[i]? with
    | some a => .ok a
    | none => .error (.panic .argIndex)
  | _ =>
    if argNames.length = 0 ∨ args.length < argNames.length - 1 then
      .error (.panic .varArgsSlice)
    else .ok (joinArgs (args.drop (argNames.length - 1)))

/-- Substitute one argument occurrence (/repo/src/macro_set/mod.rs:677-701): `out` is the
output so far in reverse, `rest` the tokens after the occurrence, `rec` is
`self.expand_macro_body(non_replaced_names, _)`. -/
def placeArg (E : Env) (rec : List Token → Res (List Token)) (nested : Bool)
    (out : List Token) (arg rest : List Token) : Res (List Token) :=
  match out with
  | .punct c!"#" :: out' => .ok ((stringify E nested arg).reverse ++ out')
  | _ =>
    match rec arg with
    | .error e => .error e
    | .ok arg =>
      if (out.head? = some (.punct c!"##") ∨ rest.head? = some (.punct c!"##")) ∧ arg = [] then
        .ok (.placemarker :: out)
      else .ok (arg.reverse ++ out)

/-- /repo/src/macro_set/mod.rs:640-708, `expand_arguments`; `out` is the output so far in
reverse. -/
def expandArguments (E : Env) (rec : List Token → Res (List Token)) (nested : Bool)
    (argNames : List Token) (args : List (List Token)) :
    List Token → List Token → Res (List Token)
  | out, [] => .ok out.reverse
  | out, t :: rest =>
    if t = .punct c!"#" then
      if (rest.head?.map Token.isArg).getD false then
        expandArguments E rec nested argNames args (t :: out) rest
      else .error (.err .stringifyNonArgument)
    else if t.isArg then
      match selectArg argNames args t with
      | .error e => .error e
      | .ok arg => match placeArg E rec nested out arg rest with
        | .error e => .error e
        | .ok out => expandArguments E rec nested argNames args out rest
    else expandArguments E rec nested argNames args (t :: out) rest

/-- /repo/src/macro_set/mod.rs:428-430, `contains_var_args`. -/
def containsVarArgs (body : List Token) : Bool := body.any fun t => t = .varArgs

/-- /repo/src/macro_set/mod.rs:487-507, `expand_var_macro_body`; `rec` is
`self.expand_macro_body`. -/
def expandVarMacroBody (E : Env) (rec : List Str → List Token → Res (List Token))
    (names : List Str) (name : Str) (body : List Token) : Res (List Token) :=
  if containsVarArgs body then .error (.err .nonVariadicVarArgs)
  else match expandConcat E body with
    | .error e => .error e
    | .ok body => rec (setInsert names name) (removePlacemarkers body)

/-- `!matches!(t, Token::Comment(_))` (/repo/src/macro_set/mod.rs:520). -/
def Token.isNotComment : Token → Bool
  | .comment _ => false
  | _ => true

/-- The name of a parameter for the uniqueness check (/repo/src/macro_set/mod.rs:546-552). -/
def Token.paramName : Token → Option Str
  | .punct p => some p
  | .ident id => some id
  | _ => none

/-- The uniqueness check (/repo/src/macro_set/mod.rs:553-559): the first name that occurs
again later. -/
def firstDuplicate : List Str → Option Str
  | [] => none
  | n :: ns => if n ∈ ns then some n else firstDuplicate ns

/-- `is_variadic` (/repo/src/macro_set/mod.rs:522). -/
def isVariadic (argNames : List Token) : Bool := argNames.getLast? = some (.punct c!"...")

/-- The arity test (/repo/src/macro_set/mod.rs:531-533): true if the call is rejected. -/
def arityMismatch (argNames : List Token) (args : List (List Token)) : Bool :=
  argNames.length ≠ args.length &&
    !(argNames.isEmpty && (args.head?.map List.isEmpty).getD true)

/-- /repo/src/macro_set/mod.rs:509-574, `expand_fn_macro_body`; `rec` is
`self.expand_macro_body`. -/
def expandFnMacroBody (E : Env) (rec : List Str → List Token → Res (List Token))
    (names : List Str) (name : Str) (argNames : List Token) (args : Option (List (List Token)))
    (body : List Token) : Res (List Token) :=
  let argNames := argNames.filter Token.isNotComment
  if !isVariadic argNames && containsVarArgs body then .error (.err .nonVariadicVarArgs)
  else if !isVariadic argNames && (args.map (arityMismatch argNames)).getD false then
    .error (.err (.fnMacroArgument name argNames.length ((args.map List.length).getD 0)))
  else match firstDuplicate (argNames.filterMap Token.paramName) with
    | some d => .error (.err (.nonUniqueArgument d))
    | none =>
      let body' : Res (List Token) := match args with
        | some args => expandArguments E (rec names) (names.length > 1) argNames args [] body
        | none => .ok body
      match body' with
      | .error e => .error e
      | .ok body => match expandConcat E body with
        | .error e => .error e
        | .ok body => rec (setInsert names name) (removePlacemarkers body)

/-- What the scanning loop of `expand_macro_body` (/repo/src/macro_set/mod.rs:443-482)
finds: nothing to replace (all tokens copied), or the first macro reference, with the
tokens copied before it and the tokens after it. -/
inductive Scan
  | done (out : List Token)
  | fnCall (pre : List Token) (id : Str) (argNames body : List Str) (args : List (List Token))
      (rest : List Token)
  | varRef (pre : List Token) (id : Str) (body : List Str) (rest : List Token)

/-- Copy one more token in front (/repo/src/macro_set/mod.rs:477,480). -/
def Scan.push (t : Token) : Scan → Scan
  | .done out => .done (t :: out)
  | .fnCall pre id a b args rest => .fnCall (t :: pre) id a b args rest
  | .varRef pre id b rest => .varRef (t :: pre) id b rest

/-- The function-like call test (/repo/src/macro_set/mod.rs:450-452): next token is `(`,
the name is a function-like macro and its arguments can be collected. -/
def fnCallAt (ms : MacroSet) (id : Str) (rest : List Token) :
    Option ((List Str × List Str) × List (List Token) × List Token) :=
  if rest.head? = some (.punct c!"(") then
    match ms.fn.get id with
    | some def_ => (collectArgs rest).map fun r => (def_, r)
    | none => none
  else none

/-- The scanning loop of `expand_macro_body` (/repo/src/macro_set/mod.rs:443-482). -/
def scan (ms : MacroSet) (names : List Str) : List Token → Scan
  | [] => .done []
  | .ident id :: rest =>
    if id ∈ names then (scan ms names rest).push (.nonRepl (.ident id))
    else match fnCallAt ms id rest with
      | some (def_, args, rest') => .fnCall [] id def_.1 def_.2 args rest'
      | none => match ms.var.get id with
        | some body => .varRef [] id body rest
        | none => (scan ms names rest).push (.ident id)
  | t :: rest => (scan ms names rest).push t

/-- /repo/src/macro_set/mod.rs:432-485, `expand_macro_body`.  After replacing the first
macro reference the *whole* token list is scanned again.  The fuel bounds the depth of
the Rust call stack of `expand_macro_body`. -/
def expandMacroBody (E : Env) (ms : MacroSet) : Nat → List Str → List Token → Res (List Token)
  | 0, _, _ => .error .diverge
  | n + 1, names, body =>
    match scan ms names body with
    | .done out => .ok out
    | .fnCall pre id argNames body args rest =>
      match tokenizeArgNames E argNames with
      | .error e => .error e
      | .ok argNames =>
        match expandFnMacroBody E (expandMacroBody E ms n) names id argNames (some args)
            (tokenize E argNames body) with
        | .error e => .error e
        | .ok ex => expandMacroBody E ms n names (pre ++ ex ++ rest)
    | .varRef pre id body rest =>
      match expandVarMacroBody E (expandMacroBody E ms n) names id (tokenize E [] body) with
      | .error e => .error e
      | .ok ex => expandMacroBody E ms n names (pre ++ ex ++ rest)

namespace MacroSet

/-- /repo/src/macro_set/mod.rs:782-790, `expand_var_macro`, with call-depth bound `n`. -/
def expandVar (E : Env) (ms : MacroSet) (n : Nat) (name : Str) : Res (List MacroToken) :=
  match ms.var.get name with
  | none => .error (.err .macroNotFound)
  | some body =>
    match expandVarMacroBody E (expandMacroBody E ms n) [] name (tokenize E [] body) with
    | .error e => .error e
    | .ok ts => CMacro.detokenize 0 ts

/-- /repo/src/macro_set/mod.rs:834-851, `expand_fn_macro`, with call-depth bound `n`. -/
def expandFn (E : Env) (ms : MacroSet) (n : Nat) (name : Str) :
    Res (List MacroToken × List MacroToken) :=
  match ms.fn.get name with
  | none => .error (.err .macroNotFound)
  | some (argNames, body) =>
    match tokenizeArgNames E argNames with
    | .error e => .error e
    | .ok argNames =>
      match expandFnMacroBody E (expandMacroBody E ms n) [] name argNames none
          (tokenize E argNames body) with
      | .error e => .error e
      | .ok ts => match CMacro.detokenize argNames.length ts with
        | .error e => .error e
        | .ok ts => match CMacro.detokenize 0 argNames with
          | .error e => .error e
          | .ok as => .ok (as, ts)

/-- /repo/src/macro_set/mod.rs:861-870, `expand`, with call-depth bound `n`. -/
def expand (E : Env) (ms : MacroSet) (n : Nat) (body : List Str) : Res (List MacroToken) :=
  match expandVarMacroBody E (expandMacroBody E ms n) [] [] (tokenize E [] body) with
  | .error e => .error e
  | .ok ts => CMacro.detokenize 0 ts

end MacroSet

end CMacro
