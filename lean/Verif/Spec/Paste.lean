import Verif.Spec.Expand

/-!
# Specification: macro expansion with `##`

The textbook relation of `Spec/Expand.lean` with the `##` operator of C11 6.10.3.3 added:
between substituting the arguments and looking for further macros, every `##` joins the
spellings next to it.  An argument next to `##` is put in as it was written, and an empty one
is held by a placemarker, which disappears afterwards.

Two spellings are joined if both are words or numbers.  The other joins the C standard
allows (punctuators, prefixes of strings, `.` before a number) have no rule here.
-/

namespace CMacro.Spec

/-- A token, `##`, or a placemarker. -/
inductive PElem
  | tok (i : Item)
  | paste
  | mark
  deriving DecidableEq

/-- Only characters that can continue an identifier. -/
def IsWord (cont : Char → Bool) (s : Str) : Prop := s ≠ [] ∧ ∀ c ∈ s, cont c = true

/-- A preprocessing number: it begins with a digit, or with a dot and a digit. -/
def IsNumber (cont : Char → Bool) (s : Str) : Prop :=
  (∃ d t, (s = d :: t ∨ s = '.' :: d :: t) ∧ d.isDigit = true) ∧
    ∀ c ∈ s, cont c = true ∨ c = '.' ∨ c = '+' ∨ c = '-'

/-- Two spellings that may be joined. -/
def Joins (cont : Char → Bool) (a b : Str) : Prop :=
  (a ≠ c!"__VA_ARGS__" ∧ b ≠ c!"__VA_ARGS__" ∧ a ++ b ≠ c!"__VA_ARGS__") ∧
    ((IsWord cont a ∧ IsWord cont b) ∨
     (IsNumber cont a ∧ (IsWord cont b ∨ IsNumber cont b)))

/-- How a token is spelled. -/
def SpelledAs (nameOf : Str → Option Str) (i : Item) (s : Str) : Prop :=
  (∃ p, i = .name s p ∧ nameOf s = some s) ∨ i = .other s

/-- The token is not a comment. -/
def NotComment (i : Item) : Prop := ∀ s, i = .other s → ¬ c!"/*" <+: s

/-- Carry out every `##`, from left to right. -/
inductive Pastes (nameOf : Str → Option Str) (cont : Char → Bool) : List PElem → List Item → Prop
  | nil : Pastes nameOf cont [] []
  | tok {i es out} : es.head? ≠ some .paste → Pastes nameOf cont es out →
      Pastes nameOf cont (.tok i :: es) (i :: out)
  /-- Placemarkers that remain are removed. -/
  | mark {es out} : es.head? ≠ some .paste → Pastes nameOf cont es out →
      Pastes nameOf cont (.mark :: es) out
  /-- Two tokens give the token spelled by the joined spelling. -/
  | join {i j a b es out} : SpelledAs nameOf i a → SpelledAs nameOf j b → Joins cont a b →
      Pastes nameOf cont (.tok (item nameOf (a ++ b)) :: es) out →
      Pastes nameOf cont (.tok i :: .paste :: .tok j :: es) out
  /-- A placemarker joined with a token gives the token. -/
  | markLeft {j es out} : NotComment j → Pastes nameOf cont (.tok j :: es) out →
      Pastes nameOf cont (.mark :: .paste :: .tok j :: es) out
  /-- A token joined with a placemarker gives the token. -/
  | markRight {i es out} : NotComment i → Pastes nameOf cont (.tok i :: es) out →
      Pastes nameOf cont (.tok i :: .paste :: .mark :: es) out
  /-- Two placemarkers give a placemarker. -/
  | markBoth {es out} : Pastes nameOf cont (.mark :: es) out →
      Pastes nameOf cont (.mark :: .paste :: .mark :: es) out

/-- What a spelling in the body stands for: the argument as written and expanded; `none` if it
is not a parameter. -/
def argumentOf (params : List Str) (raw args : List (List Item))
    (va : Option (List Item × List Item)) (s : Str) : Option (List Item × List Item) :=
  match paramIndex params s with
  | some i => some (raw.getD i [], args.getD i [])
  | none => if s = c!"__VA_ARGS__" then va else none

/-- An argument next to `##`. -/
def asOperand (a : List Item) : List PElem := if a = [] then [.mark] else a.map .tok

/-- The body with arguments in place of parameters: as written next to `##` (`after` says that
the previous spelling is `##`), otherwise expanded. -/
def fillBody (nameOf : Str → Option Str) (arg : Str → Option (List Item × List Item)) :
    Bool → List Str → List PElem
  | _, [] => []
  | after, s :: body =>
    if s = c!"##" then .paste :: fillBody nameOf arg true body
    else (match arg s with
      | some (raw, expanded) =>
        if after ∨ body.head? = some c!"##" then asOperand raw else expanded.map .tok
      | none => [.tok (item nameOf s)]) ++ fillBody nameOf arg false body

/-- `s` stands next to `##` in the body. -/
def NextToPaste (body : List Str) (s : Str) : Prop :=
  [s, c!"##"] <:+: body ∨ [c!"##", s] <:+: body

mutual

/-- `Replaces R nameOf cont D H ts out`: under definitions `D`, while the macros in `H` are being
replaced, `ts` expands to `out`; every argument next to `##` satisfies `R`, which is given the
argument as written and expanded. -/
inductive Replaces (R : List Item → List Item → Prop) (nameOf : Str → Option Str)
    (cont : Char → Bool) (D : Table) : List Str → List Item → List Item → Prop
  /-- Nothing to do. -/
  | nil {H} : Replaces R nameOf cont D H [] []
  /-- Tokens that are not identifiers stay. -/
  | other {H s ts out} : Replaces R nameOf cont D H ts out →
      Replaces R nameOf cont D H (.other s :: ts) (.other s :: out)
  /-- Names marked earlier stay. -/
  | painted {H id ts out} : Replaces R nameOf cont D H ts out →
      Replaces R nameOf cont D H (.name id true :: ts) (.name id true :: out)
  /-- The name of a macro that is being replaced is marked for good. -/
  | hidden {H id ts out} : id ∈ H → Replaces R nameOf cont D H ts out →
      Replaces R nameOf cont D H (.name id false :: ts) (.name id true :: out)
  /-- Names without a definition stay. -/
  | undefined {H id ts out} : id ∉ H → D id = none → Replaces R nameOf cont D H ts out →
      Replaces R nameOf cont D H (.name id false :: ts) (.name id false :: out)
  /-- A variable-like macro is replaced by the expansion of its body, after pasting. -/
  | object {H id body mid b ts out} : id ∉ H → D id = some (.var body) →
      Pastes nameOf cont (fillBody nameOf (fun _ => none) false body) mid →
      Replaces R nameOf cont D (id :: H) mid b → Replaces R nameOf cont D H ts out →
      Replaces R nameOf cont D H (.name id false :: ts) (b ++ out)
  /-- A call is replaced by the expansion of the body, after substitution and pasting. -/
  | call {H id params body args args' mid b ts rest out} : id ∉ H →
      D id = some (.fn params body) → c!"..." ∉ params → Call args ts rest →
      ArityOk params args → ReplacesAll R nameOf cont D H args args' →
      (∀ s a a', NextToPaste body s → argumentOf params args args' none s = some (a, a') → R a a') →
      Pastes nameOf cont (fillBody nameOf (argumentOf params args args' none) false body) mid →
      Replaces R nameOf cont D (id :: H) mid b → Replaces R nameOf cont D H rest out →
      Replaces R nameOf cont D H (.name id false :: ts) (b ++ out)
  /-- The same for a variadic macro: the surplus arguments, commas included, are
  `__VA_ARGS__`. -/
  | callVariadic {H id params body args args' va mid b ts rest out} : id ∉ H →
      D id = some (.fn (params ++ [c!"..."]) body) → c!"..." ∉ params → Call args ts rest →
      params.length ≤ args.length →
      ReplacesAll R nameOf cont D H (args.take params.length) args' →
      Replaces R nameOf cont D H (commaJoin (args.drop params.length)) va →
      (∀ s a a', NextToPaste body s →
        argumentOf params args args' (some (commaJoin (args.drop params.length), va)) s =
          some (a, a') → R a a') →
      Pastes nameOf cont (fillBody nameOf
        (argumentOf params args args' (some (commaJoin (args.drop params.length), va))) false body)
        mid →
      Replaces R nameOf cont D (id :: H) mid b → Replaces R nameOf cont D H rest out →
      Replaces R nameOf cont D H (.name id false :: ts) (b ++ out)

/-- Each argument expands on its own. -/
inductive ReplacesAll (R : List Item → List Item → Prop) (nameOf : Str → Option Str)
    (cont : Char → Bool) (D : Table) : List Str → List (List Item) → List (List Item) → Prop
  | nil {H} : ReplacesAll R nameOf cont D H [] []
  | cons {H a a' as as'} : Replaces R nameOf cont D H a a' →
      ReplacesAll R nameOf cont D H as as' →
      ReplacesAll R nameOf cont D H (a :: as) (a' :: as')

end

/-- Nothing in the argument is replaced, and nothing in it is marked. -/
def OperandKept (a a' : List Item) : Prop := a' = a ∧ ∀ id, Item.name id true ∉ a

/-- As `Plain`, but `##` may be used. -/
structure PlainPaste (nameOf : Str → Option Str) (D : Table) : Prop where
  var : ∀ id body, D id = some (.var body) →
    (∀ s ∈ body, s = c!"##" ∨ PlainSpelling s) ∧ c!"__VA_ARGS__" ∉ body
  fn : ∀ id params body, D id = some (.fn params body) →
    (∀ s ∈ body, s = c!"##" ∨ PlainSpelling s) ∧ (c!"__VA_ARGS__" ∈ body → c!"..." ∈ params) ∧
    ∃ named, (params = named ∨ params = named ++ [c!"..."]) ∧ named.Nodup ∧
      ∀ p ∈ named, nameOf p = some p ∧ p ≠ c!"..."

end CMacro.Spec
