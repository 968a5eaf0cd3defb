import Verif.Model.Print

/-!
# Specification: reading Rust items

A reader for the kinds of items that make a C macro available to Rust, by the grammar of the Rust reference: exported `macro_rules!`
macros, `pub use`, and `pub unsafe extern "C"` functions, with any attributes.
-/

namespace CMacro.Spec

/-- What closes a group that the token opens. -/
def closedBy : RTok → Option RTok
  | .punct p =>
    if p = c!"(" then some (.punct c!")") else if p = c!"[" then some (.punct c!"]") else if p = c!"{" then some (.punct c!"}") else none
  | _ => none

/-- Whether the token closes a group. -/
def closesGroup : RTok → Bool
  | .punct p => p = c!")" ∨ p = c!"]" ∨ p = c!"}"
  | _ => false

/-- The groups that are open after a token, innermost first, given those that are open before it; `none` if a group is closed by the
wrong token. -/
def nestStep (st : List RTok) (t : RTok) : Option (List RTok) :=
  match closedBy t with
  | some c => some (c :: st)
  | none =>
    if closesGroup t then
      match st with
      | c :: st => if c = t then some st else none
      | [] => none
    else some st

/-- The groups that are open after the text. -/
def nesting (st : List RTok) : List RTok → Option (List RTok)
  | [] => some st
  | t :: ts => (nestStep st t).bind fun st => nesting st ts

/-- All groups are opened and closed within the text. -/
def Grouped (ts : List RTok) : Prop := nesting [] ts = some []

/-- The text up to the end of the group that has been opened, and the text after the group. -/
def upToClose : Nat → List RTok → Option (List RTok × List RTok)
  | _, [] => none
  | d, t :: ts =>
    if (closedBy t).isSome then (upToClose (d + 1) ts).map fun r => (t :: r.1, r.2)
    else if closesGroup t then
      match d with
      | 0 => some ([], ts)
      | d + 1 => (upToClose d ts).map fun r => (t :: r.1, r.2)
    else (upToClose d ts).map fun r => (t :: r.1, r.2)

/-- The text in parts, at the commas outside of groups. -/
def atCommas : Nat → List RTok → List RTok → List (List RTok)
  | _, [], [] => []
  | _, acc, [] => [acc]
  | d, acc, t :: ts =>
    if d = 0 ∧ t = .punct c!"," then acc :: atCommas 0 [] ts
    else if (closedBy t).isSome then atCommas (d + 1) (acc ++ [t]) ts
    else if closesGroup t then atCommas (d - 1) (acc ++ [t]) ts
    else atCommas d (acc ++ [t]) ts

/-- The rest of the text after these tokens. -/
def followedBy (pre ts : List RTok) : Option (List RTok) :=
  match pre, ts with
  | [], ts => some ts
  | p :: pre, t :: ts => if p = t then followedBy pre ts else none
  | _ :: _, [] => none

/-- A name and the text after it. -/
def nameFirst : List RTok → Option (Str × List RTok)
  | .id x :: ts => some (x, ts)
  | _ => none

/-- An item. -/
inductive RustItem
  | rules (attrs : List (List RTok)) (name : Str) (matcher body : List RTok)
  | reexport (name new : Str)
  | fn (attrs : List (List RTok)) (name : Str) (params : List (List RTok)) (ret : Option (List RTok)) (body : List RTok)

/-- The attributes in front of an item. -/
def readAttrs : Nat → List RTok → List (List RTok) × List RTok
  | 0, ts => ([], ts)
  | n + 1, ts =>
    match followedBy [.punct c!"#", .punct c!"["] ts with
    | none => ([], ts)
    | some r =>
      match upToClose 0 r with
      | none => ([], ts)
      | some (a, r) => ((a :: (readAttrs n r).1), (readAttrs n r).2)

/-- `macro_rules! name { (matcher) => { body }; }` -/
def readRules (attrs : List (List RTok)) (ts : List RTok) : Option (RustItem × List RTok) := do
  let (name, ts) ← nameFirst (← followedBy [.id c!"macro_rules", .punct c!"!"] ts)
  let (matcher, ts) ← upToClose 0 (← followedBy [.punct c!"{", .punct c!"("] ts)
  let (body, ts) ← upToClose 0 (← followedBy [.punct c!"=>", .punct c!"{"] ts)
  some (.rules attrs name matcher body, ← followedBy [.punct c!";", .punct c!"}"] ts)

/-- `pub use name as new;` -/
def readUse (ts : List RTok) : Option (RustItem × List RTok) := do
  let (name, ts) ← nameFirst (← followedBy [.id c!"pub", .id c!"use"] ts)
  let (new, ts) ← nameFirst (← followedBy [.id c!"as"] ts)
  some (.reexport name new, ← followedBy [.punct c!";"] ts)

/-- `-> type`, up to the body of a function. -/
def readRet (ts : List RTok) : Option (List RTok) × List RTok :=
  match followedBy [.punct c!"->"] ts with
  | none => (none, ts)
  | some r => (some (r.takeWhile fun t => t ≠ .punct c!"{"), r.dropWhile fun t => t ≠ .punct c!"{")

/-- `pub unsafe extern "C" fn name(params) -> ret { body }` -/
def readFn (attrs : List (List RTok)) (ts : List RTok) : Option (RustItem × List RTok) := do
  let (name, ts) ← nameFirst (← followedBy [.id c!"pub", .id c!"unsafe", .id c!"extern", .str c!"C", .id c!"fn"] ts)
  let (params, ts) ← upToClose 0 (← followedBy [.punct c!"("] ts)
  let (body, rest) ← upToClose 0 (← followedBy [.punct c!"{"] (readRet ts).2)
  some (.fn attrs name (atCommas 0 [] params) (readRet ts).1 body, rest)

/-- An item and the text after it. -/
def readItem (ts : List RTok) : Option (RustItem × List RTok) :=
  let r := readAttrs ts.length ts
  (readRules r.1 r.2).or ((readUse r.2).or (readFn r.1 r.2))

/-- All items. -/
def readItems : Nat → List RTok → Option (List RustItem)
  | _, [] => some []
  | 0, _ => none
  | n + 1, ts => do
    let (i, ts) ← readItem ts
    some (i :: (← readItems n ts))

/-- The items that the text is made of. -/
def itemsOf (ts : List RTok) : Option (List RustItem) := readItems ts.length ts

/-- The parameters of a `macro_rules!` macro, with their fragment specifiers; `...` for a repetition at the end. -/
def readMatcher : List RTok → Option (List (Str × Str))
  | [] => some []
  | [.punct a, .id x, .punct b, .id f] => if a = c!"$" ∧ b = c!":" then some [(x, f)] else none
  | .punct a :: .id x :: .punct b :: .id f :: .punct c :: ts =>
    if a = c!"$" ∧ b = c!":" ∧ c = c!"," then (readMatcher ts).map ((x, f) :: ·) else none
  | ts =>
    match followedBy [.punct c!"$", .punct c!"("] ts with
    | some (.punct a :: .id _ :: .punct b :: .id f :: ts) =>
      if a = c!"$" ∧ b = c!":" ∧ ts = [.punct c!")", .punct c!",", .punct c!"*"] then some [(c!"...", f)] else none
    | _ => none

/-- The name of a parameter of a function, `mut name: type`. -/
def fnParamName : List RTok → Option Str
  | .id m :: .id x :: .punct c :: _ => if m = c!"mut" ∧ c = c!":" then some x else none
  | _ => none

/-- The items make `name` available, and nothing else but perhaps a macro of another name: as a macro with these parameters and this body, exported and
renamed, or as a function with these parameters, this return type and this body, which is made a statement if there is no return type. -/
inductive Provides (name : Str) (params : List Str) : GenFn → List RustItem → Prop
  | rules {attrs inner matcher ps n xs body} : [.id c!"macro_export"] ∈ attrs → readMatcher matcher = some ps → ps.map (·.1) = params →
    Provides name params (.macro n xs body) [.rules attrs inner matcher body, .reexport inner name]
  | fn {attrs ps n xs ret body} : ps.map fnParamName = params.map some → ps.map (·.drop 1) = xs →
    Provides name params (.fn n xs (some ret) body) [.fn attrs name ps (some ret) body]
  | unit {attrs ps n xs body} : ps.map fnParamName = params.map some → ps.map (·.drop 1) = xs →
    Provides name params (.fn n xs none body) [.fn attrs name ps none (body ++ [.punct c!";"])]

end CMacro.Spec
