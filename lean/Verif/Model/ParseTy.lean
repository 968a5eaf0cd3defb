import Verif.Model.Ast

/-!
# Token-level parsers: identifiers, literals, types

Model of /repo/src/ast/tokens.rs, the parser of /repo/src/ast/identifier_expr.rs, the token
parsers of the literals, and the parser of /repo/src/ast/ty.rs.
-/

namespace CMacro
open Parser

/-- Parsers on `&[MacroToken]` (/repo/src/ast/ty.rs:199). -/
abbrev TParser (α : Type) := Parser MacroToken α

/-! ## Combinators -/

/-- nom `multi::separated_list0`: an item, then separators and items; when the item after a
separator fails, the separator is not consumed.  Used at /repo/src/ast/expr.rs:93,
/repo/src/ast/function_decl.rs:37, /repo/src/ast/asm.rs:153-185.  (Every separator used by the
crate consumes a token.) -/
def Parser.sepList0 {σ α β : Type} (sep : Parser σ β) (p : Parser σ α) : Parser σ (List α) := fun i =>
  match p i with
  | none => some ([], i)
  | some (a, r) => match many0 (preceded sep p) r with
    | some (as, r') => some (a :: as, r')
    | none => none

/-- One round of nom `branch::permutation`: the first parser not used yet that succeeds;
`none` if all unused parsers fail (/repo/src/ast/ty.rs:211,231,251,356). -/
def Parser.permStep {σ α : Type} : List (Parser σ α × Option α) → List σ →
    Option (List (Parser σ α × Option α) × List σ)
  | [], _ => none
  | (p, some a) :: ps, i => match permStep ps i with
    | some (ps', r) => some ((p, some a) :: ps', r)
    | none => none
  | (p, none) :: ps, i => match p i with
    | some (a, r) => some ((p, some a) :: ps, r)
    | none => match permStep ps i with
      | some (ps', r) => some ((p, none) :: ps', r)
      | none => none

/-- The result of nom `branch::permutation` once no unused parser succeeds: all must have
been used (/repo/src/ast/ty.rs:211,231,251,356). -/
def Parser.permDone {σ α : Type} : List (Parser σ α × Option α) → Parser σ (List α)
  | [], i => some ([], i)
  | (_, some a) :: ps, i => match permDone ps i with
    | some (as, r) => some (a :: as, r)
    | none => none
  | (_, none) :: _, _ => none

/-- nom `branch::permutation`: rounds until no unused parser succeeds; all must have been
used.  The first argument bounds the number of rounds (/repo/src/ast/ty.rs:211,231,251,356). -/
def Parser.permGo {σ α : Type} : Nat → List (Parser σ α × Option α) → Parser σ (List α)
  | 0, ps, i => permDone ps i
  | n + 1, ps, i => match permStep ps i with
    | some (ps', r) => permGo n ps' r
    | none => permDone ps i

/-- nom `branch::permutation`; each parser is used at most once, so as many rounds as parsers
are enough.  Results have a common type here (/repo/src/ast/ty.rs:211,231,251,356). -/
def Parser.permutation {σ α : Type} (ps : List (Parser σ α)) : Parser σ (List α) :=
  permGo ps.length (ps.map fun p => (p, none))

/-! ## Tokens (/repo/src/ast/tokens.rs) -/

/-- /repo/src/ast/tokens.rs:20-29, `take_one`. -/
def takeOne : TParser MacroToken := satisfy fun _ => true

/-- /repo/src/ast/tokens.rs:12-14, `macro_arg`. -/
def macroArg : TParser Nat := mapOpt takeOne fun
  | .arg i => some i
  | _ => none

/-- /repo/src/ast/tokens.rs:16-18, `macro_id`. -/
def macroId : TParser Str := mapOpt takeOne fun
  | .ident id => some id
  | _ => none

/-- /repo/src/ast/tokens.rs:31-36, `comment`. -/
def comment : TParser Str := mapOpt takeOne fun
  | .comment c => some c
  | _ => none

/-- /repo/src/ast/tokens.rs:38-40, `meta`. -/
def «meta» : TParser (List Str) := many0 comment

/-- /repo/src/ast/tokens.rs:42-54, `punct`. -/
def punct (p : Str) : TParser Unit := mapOpt takeOne fun
  | .punct q => if p = q then some () else none
  | _ => none

/-- /repo/src/ast/tokens.rs:56-74, `id` and `keyword`. -/
def keyword (k : Str) : TParser Unit := mapOpt takeOne fun
  | .ident id => if id = k then some () else none
  | _ => none

/-- /repo/src/ast/tokens.rs:78-86, `parenthesized`. -/
def parenthesized {α : Type} (p : TParser α) : TParser α :=
  delimited (seq (punct c!"(") «meta») p (seq «meta» (punct c!")"))

/-- nom `combinator::value(v, p)` (/repo/src/ast/ty.rs:356-358). -/
def Parser.value {σ α β : Type} (v : β) (p : Parser σ α) : Parser σ β := map p fun _ => v

/-! ## Identifiers with `##` (/repo/src/ast/identifier_expr.rs) -/

/-- nom `character::complete::u64`: all leading digits, failing on overflow
(/repo/src/ast/identifier_expr.rs:50). -/
def u64P : Parser Char Nat :=
  mapOpt (takeWhile1 (isDigit 10)) fun ds =>
    let v := ds.foldl (fun acc c => acc * 10 + (toDigit 10 c).getD 0) 0
    if v < 2 ^ 64 then some v else none

/-- /repo/src/ast/identifier_expr.rs:45-52, `unsuffixed_int`: a leading zero stands alone. -/
def unsuffixedInt : Parser Char IdentCont :=
  map (or (map (tag c!"0") fun _ => 0) u64P) fun v => .int ⟨BitVec.ofNat 128 v, none⟩

/-- /repo/src/ast/identifier_expr.rs:54-72, splitting an identifier continuation such as
`123def` into integers and identifiers.  What is left over is dropped. -/
def splitCont (E : Env) (s : Str) : Option (List IdentCont) :=
  (many1 (or unsuffixedInt (map (identParseStr E) .plain)) s).map (·.1)

/-- /repo/src/ast/identifier_expr.rs:40-74, what may follow `##`. -/
def contPart (E : Env) : TParser (List IdentCont) :=
  or (map macroArg fun i => [.arg i]) <| or (map macroId fun id => [.plain id]) <|
  mapOpt takeOne fun
    | .identCont s => splitCont E s
    | _ => none

/-- /repo/src/ast/identifier_expr.rs:78-90, the fold of `parse_concat_ident`. -/
def IdentExpr.push : IdentExpr → List IdentCont → IdentExpr
  | .arg i, ids => .concat (.arg i :: ids)
  | .plain id, ids => .concat (.plain id :: ids)
  | .concat ids, ids' => .concat (ids ++ ids')

/-- /repo/src/ast/identifier_expr.rs:34-92, `IdentifierExpr::parse_concat_ident`. -/
def parseConcatIdent (E : Env) : TParser IdentExpr := fun i =>
  match (or (map macroArg IdentExpr.arg) (map macroId IdentExpr.plain)) i with
  | none => none
  | some (id, r) =>
    map (many0 (preceded (delimited «meta» (punct c!"##") «meta») (contPart E)))
      (fun parts => parts.foldl IdentExpr.push id) r

/-! ## Literals -/

/-- The prefix identifiers of /repo/src/ast/literal/char.rs:103-108. -/
def charPrefixTok : TParser CharPrefix :=
  or (value .utf8 (keyword c!"u8")) <| or (value .utf16 (keyword c!"u")) <|
  or (value .utf32 (keyword c!"U")) (value .wide (keyword c!"L"))

/-- /repo/src/ast/literal/char.rs:99-121, `LitChar::parse`. -/
def parseLitChar : TParser LitChar :=
  or
    (mapOpt (seq charPrefixTok (mapOpt takeOne fun
        | .lit (.char (.ordinary c)) => some c
        | _ => none)) fun (p, c) => LitChar.withPrefix (some p) c)
    (mapOpt takeOne fun
      | .lit (.char c) => some c
      | _ => none)

/-- An ordinary string literal token (/repo/src/ast/literal/string.rs:224-227,242-247). -/
def ordinaryTok : TParser (List UInt8) := mapOpt takeOne fun
  | .lit (.string (.ordinary bs)) => some bs
  | _ => none

/-- Continuation of a `u8`/`u`/`U` string (/repo/src/ast/literal/string.rs:237-249,262-274,
287-299): a literal of the same kind, or an ordinary one, optionally preceded by the prefix
as an identifier, that is valid UTF-8. -/
def strTail (pre : Str) (same : MacroToken → Option Str) : TParser Str :=
  or (mapOpt takeOne same)
    (preceded (opt (keyword pre)) (mapOpt ordinaryTok utf8Dec))

/-- /repo/src/ast/literal/string.rs:215-336, `LitString::parse`: adjacent literals are joined. -/
def parseLitString : TParser LitString := fun i =>
  match i with
  | .lit (.string (.ordinary bs)) :: r =>
    map (many0 ordinaryTok) (fun bss => .ordinary (bs ++ bss.flatten)) r
  | .lit (.string (.utf8 s)) :: r =>
    map (many0 (strTail c!"u8" fun
      | .lit (.string (.utf8 s)) => some s
      | _ => none)) (fun ss => .utf8 (s ++ ss.flatten)) r
  | .lit (.string (.utf16 s)) :: r =>
    map (many0 (strTail c!"u" fun
      | .lit (.string (.utf16 s)) => some s
      | _ => none)) (fun ss => .utf16 (s ++ ss.flatten)) r
  | .lit (.string (.utf32 s)) :: r =>
    map (many0 (strTail c!"U" fun
      | .lit (.string (.utf32 s)) => some s
      | _ => none)) (fun ss => .utf32 (s ++ ss.flatten)) r
  | .lit (.string (.wide ws)) :: r =>
    map (many0 (or
      (mapOpt takeOne fun
        | .lit (.string (.wide ws)) => some ws
        | _ => none)
      (preceded (opt (keyword c!"L")) (map ordinaryTok fun bs => bs.map UInt8.toNat))))
      (fun wss => .wide (ws ++ wss.flatten)) r
  | _ => none

/-- /repo/src/ast/literal/float.rs:102-104, `LitFloat::parse`. -/
def parseLitFloat : TParser LitFloat := mapOpt takeOne fun
  | .lit (.float f) => some f
  | _ => none

/-- /repo/src/ast/literal/int.rs:145-147, `LitInt::parse`. -/
def parseLitInt : TParser LitInt := mapOpt takeOne fun
  | .lit (.int n) => some n
  | _ => none

/-- /repo/src/ast/literal.rs:71-78, `Lit::parse`. -/
def parseLit : TParser Lit :=
  or (map parseLitChar .char) <| or (map parseLitString .string) <|
  or (map parseLitFloat .float) (map parseLitInt .int)

/-- /repo/src/ast/literal/string.rs:523-531, `LitString::as_str`. -/
def LitString.asStr : LitString → Option Str
  | .ordinary bs => utf8Dec bs
  | .utf8 s => some s
  | .utf16 s => some s
  | .utf32 s => some s
  | .wide _ => none

/-- /repo/src/ast/literal/string.rs:512-520, `LitString::as_bytes`. -/
def LitString.asBytes : LitString → Option (List UInt8)
  | .ordinary bs => some bs
  | .utf8 s => some (utf8EncStr s)
  | .utf16 s => some (utf8EncStr s)
  | .utf32 s => some (utf8EncStr s)
  | .wide _ => none

/-! ## Types (/repo/src/ast/ty.rs) -/

/-- /repo/src/ast/ty.rs:336-338, `TypeQualifier::is_const`. -/
def Qualifier.isConst : Qualifier → Bool
  | .const | .constVolatile => true
  | .volatile => false

/-- /repo/src/ast/ty.rs:341-343, `TypeQualifier::is_volatile`. -/
def Qualifier.isVolatile : Qualifier → Bool
  | .volatile | .constVolatile => true
  | .const => false

/-- /repo/src/ast/ty.rs:345-351, `TypeQualifier::or`. -/
def Qualifier.or : Qualifier → Qualifier → Qualifier
  | .const, .const => .const
  | .volatile, .volatile => .const
  | _, _ => .constVolatile

/-- /repo/src/ast/ty.rs:405-412, `Type::qualify`. -/
def Ty.qualify : Ty → Qualifier → Ty
  | .qualified ty q, q' => .qualified ty (q.or q')
  | ty, q => .qualified ty q

/-- The pattern `if let Some(qualifier) = qualifier { ty.qualify(qualifier) } else { ty }`
(/repo/src/ast/ty.rs:221-225 and similar). -/
def Ty.qualifyOpt (ty : Ty) : Option Qualifier → Ty
  | some q => ty.qualify q
  | none => ty

/-- /repo/src/ast/ty.rs:354-360, `const_volatile_qualifier`. -/
def constVolatile : TParser Qualifier :=
  or (value .constVolatile (permutation [keyword c!"const", keyword c!"volatile"])) <|
  or (value .const (keyword c!"const")) (value .volatile (keyword c!"volatile"))

/-- Results of the parsers inside the permutations of `int_ty` (/repo/src/ast/ty.rs:208-270). -/
inductive TyPart
  | qual (q : Option Qualifier)
  | kw (k : Option Str)

/-- A keyword as a part (`keyword(..)` in the permutations of /repo/src/ast/ty.rs:208-270). -/
def kwPart (k : Str) : TParser TyPart := value (.kw (some k)) (keyword k)

/-- An optional part: `opt(p)` (/repo/src/ast/ty.rs:231). -/
def optPart (p : TParser TyPart) : TParser TyPart := map (opt p) fun
  | some x => x
  | none => .kw none

/-- `opt(const_volatile_qualifier)` as a part (/repo/src/ast/ty.rs:231). -/
def qualPart : TParser TyPart := map (opt constVolatile) .qual

/-- /repo/src/ast/ty.rs:200-202, `int_signedness`. -/
def intSignedness : TParser TyPart := or (kwPart c!"unsigned") (kwPart c!"signed")

/-- /repo/src/ast/ty.rs:204-206, `int_length`. -/
def intLength : TParser TyPart := or (kwPart c!"short") (kwPart c!"long")

/-- /repo/src/ast/ty.rs:209-228, the `long long` alternative of `int_ty`. -/
def intTyLongLong : TParser Ty :=
  mapOpt (permutation [qualPart, optPart intSignedness, kwPart c!"long", kwPart c!"long",
      optPart (kwPart c!"int")]) fun
    | [.qual q, .kw s, _, _, _] =>
      some ((Ty.builtIn (if s = some c!"unsigned" then .uLongLong else .longLong)).qualifyOpt q)
    | _ => none

/-- /repo/src/ast/ty.rs:229-248, the `long`/`short` alternative of `int_ty`. -/
def intTyLength : TParser Ty :=
  mapOpt (permutation [qualPart, optPart intSignedness, intLength, optPart (kwPart c!"int")]) fun
    | [.qual q, .kw s, .kw (some i), _] =>
      let u : Bool := s = some c!"unsigned"
      some ((Ty.builtIn (if i = c!"short" then (if u then .uShort else .short)
        else (if u then .uLong else .long))).qualifyOpt q)
    | _ => none

/-- /repo/src/ast/ty.rs:249-269, the `char`/`int` alternative of `int_ty`. -/
def intTyPlain : TParser Ty :=
  mapOpt (permutation [qualPart, optPart intSignedness, or (kwPart c!"char") (kwPart c!"int")]) fun
    | [.qual q, .kw s, .kw (some i)] =>
      some ((Ty.builtIn (if i = c!"int" then (if s = some c!"unsigned" then .uInt else .int)
        else if s = some c!"unsigned" then .uChar
        else if s = some c!"signed" then .sChar
        else .char)).qualifyOpt q)
    | _ => none

/-- /repo/src/ast/ty.rs:199-271, `int_ty`. -/
def intTy : TParser Ty := or intTyLongLong (or intTyLength intTyPlain)

/-- /repo/src/ast/ty.rs:283-295, `[long] [qualifier] double`. -/
def doubleTy : TParser Ty :=
  map (terminated (seq (opt (keyword c!"long")) (opt constVolatile)) (keyword c!"double"))
    fun (l, q) => (Ty.builtIn (if l.isSome then .longDouble else .double)).qualifyOpt q

/-- /repo/src/ast/ty.rs:275-305, the first alternative of `ty`. -/
def simpleTy : TParser Ty :=
  map (seq (opt constVolatile)
    (or (value (.builtIn .void) (keyword c!"void")) <|
     or (value (.builtIn .bool) (keyword c!"bool")) <|
     or (value (.builtIn .float) (keyword c!"float")) doubleTy))
    fun (q, t) => t.qualifyOpt q

/-- /repo/src/ast/ty.rs:307-321, the identifier alternative of `ty`. -/
def identTy (E : Env) : TParser Ty :=
  map (seq (opt constVolatile) (seq (opt (keyword c!"struct")) (parseConcatIdent E)))
    fun (q, s, id) => (Ty.ident id s.isSome).qualifyOpt q

/-- /repo/src/ast/ty.rs:273-321, `ty`. -/
def tyBase (E : Env) : TParser Ty := or simpleTy (or intTy (identTy E))

/-- The fold of `Type::parse` (/repo/src/ast/ty.rs:390-402): one `*` with its qualifier. -/
def Ty.addPtr (t : Ty) (q : Option Qualifier) : Ty := (Ty.ptr t).qualifyOpt q

/-- /repo/src/ast/ty.rs:383-403, `Type::parse`. -/
def parseTy (E : Env) : TParser Ty := fun i =>
  match seq (tyBase E) (opt constVolatile) i with
  | none => none
  | some ((t, q), r) =>
    map (many0 (preceded (seq (punct c!"*") «meta») (opt constVolatile)))
      (fun qs => qs.foldl Ty.addPtr (t.qualifyOpt q)) r

end CMacro
