import Verif.Spec.Occurs

/-!
# Metavariables of macros
-/

namespace CMacro.Spec

/-- The body of a macro with these parameters: every `$` starts a parameter or the list of variable arguments, and a
parameter is nowhere written without `$`, unless as a word of the code generator or of the user of the crate.
`$crate` is not a parameter. -/
inductive Metavars (C : Ctx) (ps : List Str) : List RTok → Prop
  | nil : Metavars C ps []
  | metavar {x ts} : x ∈ ps → x ≠ c!"..." → x ≠ c!"crate" → Metavars C ps ts → Metavars C ps (.punct c!"$" :: .id x :: ts)
  | rest {ts} : c!"..." ∈ ps → Metavars C ps ts → Metavars C ps (q!"$ ( $ __VA_ARGS__ ) , *" ++ ts)
  | tok {t ts} : t ≠ .punct c!"$" → (∀ x, t = .id x → OrdinaryWord C x → x ∉ ps) → Metavars C ps ts → Metavars C ps (t :: ts)

/-- The declaration of a parameter. -/
inductive Declares : Str → List RTok → Prop
  | one {x frag} : x ≠ c!"..." → x ≠ c!"crate" → frag ∈ [c!"ident", c!"expr", c!"ty", c!"tt"] →
    Declares x [.punct c!"$", .id x, .punct c!":", .id frag]
  | rest : Declares c!"..." q!"$ ( $ __VA_ARGS__ : expr ) , *"

/-- No name of the body is the name of a parameter: where it is, there is the parameter itself. -/
def ParamsReplaced (ps : List Str) (ls : List Leaf) : Prop := ∀ x ∈ ps, Leaf.name x ∉ ls

end CMacro.Spec
