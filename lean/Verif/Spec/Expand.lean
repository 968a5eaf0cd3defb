import Verif.Spec.Store

/-!
# Specification: macro expansion

A textbook description of macro replacement (C11 6.10.3 without `#` and `##`), as an
inductively defined relation.  It works on spellings; how a single spelling is
classified (is it an identifier, and which one) is a parameter `nameOf`.

The relation deliberately has no rule for a function-like macro name that is not
followed by an argument list: the C standard leaves it alone, but then what happens
depends on the tokens after the text being expanded.  Texts in which every
function-like macro name is followed by its arguments are exactly those the relation
can expand.
-/

namespace CMacro.Spec

/-- A token during expansion: an identifier, with a mark saying that it may no longer be
replaced, or any other spelling. -/
inductive Item
  | name (id : Str) (painted : Bool)
  | other (spelling : Str)
  deriving DecidableEq

/-- Read one spelling. -/
def item (nameOf : Str → Option Str) (s : Str) : Item :=
  match nameOf s with
  | some id => .name id false
  | none => .other s

/-- An opening bracket and its partner. -/
def Brackets (o c : Str) : Prop :=
  (o = c!"(" ∧ c = c!")") ∨ (o = c!"[" ∧ c = c!"]") ∨ (o = c!"{" ∧ c = c!"}")

/-- One of `( ) [ ] { }`. -/
def IsBracket (s : Str) : Prop :=
  s = c!"(" ∨ s = c!")" ∨ s = c!"[" ∨ s = c!"]" ∨ s = c!"{" ∨ s = c!"}"

/-- Text in which brackets match. -/
inductive Balanced : List Item → Prop
  | nil : Balanced []
  | name {id p ts} : Balanced ts → Balanced (.name id p :: ts)
  | other {s ts} : ¬ IsBracket s → Balanced ts → Balanced (.other s :: ts)
  | group {o c inner ts} : Brackets o c → Balanced inner → Balanced ts →
      Balanced (.other o :: inner ++ .other c :: ts)

/-- Text that can be one macro argument: brackets match, and there is no comma outside
brackets. -/
inductive ArgText : List Item → Prop
  | nil : ArgText []
  | name {id p ts} : ArgText ts → ArgText (.name id p :: ts)
  | other {s ts} : ¬ IsBracket s → s ≠ c!"," → ArgText ts → ArgText (.other s :: ts)
  | group {o c inner ts} : Brackets o c → Balanced inner → ArgText ts →
      ArgText (.other o :: inner ++ .other c :: ts)

/-- Arguments separated by commas. -/
def commaJoin : List (List Item) → List Item
  | [] => []
  | [a] => a
  | a :: as => a ++ .other c!"," :: commaJoin as

/-- `ts` starts with the parenthesised argument list `args` and continues with `rest`. -/
def Call (args : List (List Item)) (ts rest : List Item) : Prop :=
  args ≠ [] ∧ (∀ a ∈ args, ArgText a) ∧
    ts = .other c!"(" :: commaJoin args ++ .other c!")" :: rest

/-- The number of arguments fits: a parameterless macro is called with one empty
argument. -/
def ArityOk (params : List Str) (args : List (List Item)) : Prop :=
  args.length = params.length ∨ (params = [] ∧ args = [[]])

/-- The position of a parameter. -/
def paramIndex : List Str → Str → Option Nat
  | [], _ => none
  | p :: ps, s => if p = s then some 0 else (paramIndex ps s).map (· + 1)

/-- The body with arguments in place of parameters; `va` is what `__VA_ARGS__` stands
for, if anything. -/
def subst (nameOf : Str → Option Str) (params : List Str) (args : List (List Item))
    (va : Option (List Item)) : List Str → List Item
  | [] => []
  | s :: body =>
    (match paramIndex params s with
      | some i => args.getD i []
      | none => match va with
        | some v => if s = c!"__VA_ARGS__" then v else [item nameOf s]
        | none => [item nameOf s]) ++ subst nameOf params args va body

mutual

/-- `Expands nameOf D H ts out`: under definitions `D`, while the macros in `H` are being
replaced, `ts` expands to `out`. -/
inductive Expands (nameOf : Str → Option Str) (D : Table) : List Str → List Item → List Item → Prop
  /-- Nothing to do. -/
  | nil {H} : Expands nameOf D H [] []
  /-- Tokens that are not identifiers stay. -/
  | other {H s ts out} : Expands nameOf D H ts out →
      Expands nameOf D H (.other s :: ts) (.other s :: out)
  /-- Names marked earlier stay. -/
  | painted {H id ts out} : Expands nameOf D H ts out →
      Expands nameOf D H (.name id true :: ts) (.name id true :: out)
  /-- The name of a macro that is being replaced is marked for good. -/
  | hidden {H id ts out} : id ∈ H → Expands nameOf D H ts out →
      Expands nameOf D H (.name id false :: ts) (.name id true :: out)
  /-- Names without a definition stay. -/
  | undefined {H id ts out} : id ∉ H → D id = none → Expands nameOf D H ts out →
      Expands nameOf D H (.name id false :: ts) (.name id false :: out)
  /-- A variable-like macro is replaced by the expansion of its body, in which it is
  hidden. -/
  | object {H id body b ts out} : id ∉ H → D id = some (.var body) →
      Expands nameOf D (id :: H) (body.map (item nameOf)) b → Expands nameOf D H ts out →
      Expands nameOf D H (.name id false :: ts) (b ++ out)
  /-- A call is replaced by the expansion of the body with the expanded arguments in
  place of the parameters. -/
  | call {H id params body args args' b ts rest out} : id ∉ H →
      D id = some (.fn params body) → c!"..." ∉ params → Call args ts rest →
      ArityOk params args → ExpandsAll nameOf D H args args' →
      Expands nameOf D (id :: H) (subst nameOf params args' none body) b →
      Expands nameOf D H rest out →
      Expands nameOf D H (.name id false :: ts) (b ++ out)
  /-- The same for a variadic macro: the surplus arguments, commas included, are
  `__VA_ARGS__`. -/
  | callVariadic {H id params body args args' va b ts rest out} : id ∉ H →
      D id = some (.fn (params ++ [c!"..."]) body) → c!"..." ∉ params → Call args ts rest →
      params.length ≤ args.length →
      ExpandsAll nameOf D H (args.take params.length) args' →
      Expands nameOf D H (commaJoin (args.drop params.length)) va →
      Expands nameOf D (id :: H) (subst nameOf params args' (some va) body) b →
      Expands nameOf D H rest out →
      Expands nameOf D H (.name id false :: ts) (b ++ out)

/-- Each argument expands on its own. -/
inductive ExpandsAll (nameOf : Str → Option Str) (D : Table) :
    List Str → List (List Item) → List (List Item) → Prop
  | nil {H} : ExpandsAll nameOf D H [] []
  | cons {H a a' as as'} : Expands nameOf D H a a' → ExpandsAll nameOf D H as as' →
      ExpandsAll nameOf D H (a :: as) (a' :: as')

end

/-- No identifier in the text is a macro name. -/
def NoMacro (D : Table) (ts : List Item) : Prop := ∀ id p, Item.name id p ∈ ts → D id = none

/-- A spelling that is not an operator of the preprocessor and does not start with a
line continuation. -/
def PlainSpelling (s : Str) : Prop :=
  s ≠ c!"#" ∧ s ≠ c!"##" ∧ ¬ c!"\\\n" <+: s ∧ ¬ c!"\\\r\n" <+: s

instance : DecidablePred PlainSpelling := fun s => by unfold PlainSpelling; infer_instance

/-- The definitions use neither `##` nor `#`; `__VA_ARGS__` occurs only in variadic
macros; parameters are identifiers spelled plainly, all different, followed by `...` in
variadic macros. -/
structure Plain (nameOf : Str → Option Str) (D : Table) : Prop where
  var : ∀ id body, D id = some (.var body) →
    (∀ s ∈ body, PlainSpelling s) ∧ c!"__VA_ARGS__" ∉ body
  fn : ∀ id params body, D id = some (.fn params body) →
    (∀ s ∈ body, PlainSpelling s) ∧ (c!"__VA_ARGS__" ∈ body → c!"..." ∈ params) ∧
    ∃ named, (params = named ∨ params = named ++ [c!"..."]) ∧ named.Nodup ∧
      ∀ p ∈ named, nameOf p = some p ∧ p ≠ c!"..."

/-- Text in which every name of a function-like macro is directly followed by an argument
list of the right length (and so are the names inside the arguments). -/
inductive Complete (D : Table) : List Item → Prop
  | nil : Complete D []
  | other {s ts} : Complete D ts → Complete D (.other s :: ts)
  | painted {id ts} : Complete D ts → Complete D (.name id true :: ts)
  | name {id ts} : (∀ params body, D id ≠ some (.fn params body)) → Complete D ts →
      Complete D (.name id false :: ts)
  | call {id params body args ts rest} : D id = some (.fn params body) → Call args ts rest →
      ArityOk params args → (∀ a ∈ args, Complete D a) → Complete D rest →
      Complete D (.name id false :: ts)

/-- A body in which the parameters are left alone: they are not names. -/
def openBody (nameOf : Str → Option Str) (params : List Str) (body : List Str) : List Item :=
  body.map fun s => if s ∈ params then .other s else item nameOf s

/-- A body read with its parameters as placeholders: marked names. -/
def placeholders (nameOf : Str → Option Str) (params : List Str) (body : List Str) : List Item :=
  body.map fun s => if s ∈ params then .name s true else item nameOf s

/-- Sets of definitions in which bodies are complete, have matching brackets, and no comma
outside brackets; there are no variadic macros. -/
structure WellNested (nameOf : Str → Option Str) (D : Table) : Prop where
  var : ∀ id body, D id = some (.var body) →
    Complete D (body.map (item nameOf)) ∧ ArgText (body.map (item nameOf))
  fn : ∀ id params body, D id = some (.fn params body) → c!"..." ∉ params ∧
    Complete D (placeholders nameOf params body) ∧ ArgText (placeholders nameOf params body)

/-! ## Comments -/

/-- `/* ... */`, ended by the first `*/`. -/
def BlockComment (s : Str) : Prop :=
  ∃ t, s = c!"/*" ++ t ++ c!"*/" ∧ ¬ c!"*/" <:+: t

instance (s : Str) : Decidable (BlockComment s) :=
  decidable_of_iff (s = c!"/*" ++ (s.drop 2).dropLast.dropLast ++ c!"*/" ∧
    ¬ c!"*/" <:+: (s.drop 2).dropLast.dropLast) (by
    constructor
    · rintro ⟨h1, h2⟩; exact ⟨_, h1, h2⟩
    · rintro ⟨t, rfl, ht⟩
      have : ((c!"/*" ++ t ++ c!"*/").drop 2).dropLast.dropLast = t := by
        simp
      rw [this]
      exact ⟨rfl, ht⟩)

/-- The list without comments. -/
def withoutComments (l : List Str) : List Str := l.filter fun s => ¬ BlockComment s

end CMacro.Spec
